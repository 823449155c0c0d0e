import Verif.Model.MpList
/-!
# Operations on type lists: C94
-/

namespace Ra.Props
open Mp

mutual

theorem same_iff : ∀ (a b : CType), CType.same a b = true ↔ a = b
  | .other a, b => by cases b <;> simp [CType.same]
  | .ic a, b => by cases b <;> simp [CType.same]
  | .list a, b => by cases b <;> simp [CType.same, sames_iff a]
  | .tuple a, b => by cases b <;> simp [CType.same, sames_iff a]

theorem sames_iff : ∀ (a b : List CType), CType.sames a b = true ↔ a = b
  | [], b => by cases b <;> simp [CType.sames]
  | a :: as, b => by cases b <;> simp [CType.sames, same_iff a, sames_iff as]

end

theorem appendFrom_lists (L0 : List CType) : ∀ (Ls : List (List CType)), Mp.appendFrom L0 (Ls.map .list) = some (.list (L0 ++ Ls.flatten))
  | [] => by simp [Mp.appendFrom]
  | L :: Ls => by
    have := appendFrom_lists (L0 ++ L) Ls
    simp [Mp.appendFrom, this, List.append_assoc]

theorem append_lists (L0 : List CType) (Ls : List (List CType)) : Mp.append (.list L0 :: Ls.map .list) = some (.list (L0 ++ Ls.flatten)) :=
  appendFrom_lists L0 Ls

theorem appendFrom_isList (A : List CType) : ∀ (T : List CType) (t : CType), Mp.appendFrom T A = some t → ∀ a ∈ A, ∃ l, a = .list l := by
  induction A with
  | nil => intro T t _ a ha; simp at ha
  | cons b A ih =>
    intro T t h a ha
    cases b <;> simp only [Mp.appendFrom] at h <;> try (exact absurd h (by simp))
    rcases List.mem_cons.mp ha with rfl | ha
    · exact ⟨_, rfl⟩
    · exact ih _ t h a ha

theorem append_isList (A : List CType) (t : CType) (h : Mp.append A = some t) : A ≠ [] ∧ ∀ a ∈ A, ∃ l, a = .list l := by
  cases A with
  | nil => simp [Mp.append] at h
  | cons b A =>
    refine ⟨by simp, ?_⟩
    intro a ha
    cases b <;> simp only [Mp.append] at h <;> try (exact absurd h (by simp))
    rcases List.mem_cons.mp ha with rfl | ha
    · exact ⟨_, rfl⟩
    · exact appendFrom_isList A _ t h a ha

/-- **C94**, `append`: with one list or more, it has the types of all in order. There's no `append` of no lists, or of types that aren't lists. -/
theorem C94_append (A : List CType) (t : CType) :
    Mp.append A = some t ↔ A ≠ [] ∧ ∃ Ls : List (List CType), A = Ls.map .list ∧ t = .list Ls.flatten := by
  constructor
  · intro h
    obtain ⟨hne, hl⟩ := append_isList A t h
    refine ⟨hne, ?_⟩
    have : ∃ Ls : List (List CType), A = Ls.map .list := by
      clear h hne
      induction A with
      | nil => exact ⟨[], rfl⟩
      | cons a A ih =>
        obtain ⟨l, rfl⟩ := hl a (by simp)
        obtain ⟨Ls, rfl⟩ := ih fun x hx => hl x (by simp [hx])
        exact ⟨l :: Ls, rfl⟩
    obtain ⟨Ls, rfl⟩ := this
    refine ⟨Ls, rfl, ?_⟩
    cases Ls with
    | nil => exact absurd rfl hne
    | cons L0 Ls =>
      rw [List.map_cons, append_lists] at h
      simpa using (Option.some.inj h).symm
  · rintro ⟨hne, Ls, rfl, rfl⟩
    cases Ls with
    | nil => exact absurd rfl hne
    | cons L0 Ls => rw [List.map_cons, append_lists]; simp

theorem cons_list (T : CType) (L : List CType) : Mp.cons T (.list L) = some (.list (T :: L)) := by
  simp [Mp.cons, Mp.append, Mp.appendFrom]

/-- **C94**, `cons`: `T` goes before the types of `L`. -/
theorem C94_cons (T L t : CType) : Mp.cons T L = some t ↔ ∃ l, L = .list l ∧ t = .list (T :: l) := by
  constructor
  · intro h
    cases L <;> simp [Mp.cons, Mp.append, Mp.appendFrom] at h
    exact ⟨_, rfl, h.symm⟩
  · rintro ⟨l, rfl, rfl⟩; exact cons_list T l

theorem iotaN_eq (s : Int) : ∀ (n : Nat) (o : Int), Mp.iotaN n o s = some (.list ((List.range n).map fun (i : Nat) => CType.ic (o + s * i)))
  | 0, o => by simp [Mp.iotaN]
  | n + 1, o => by
    simp only [Mp.iotaN, iotaN_eq s n, bind, Option.bind, cons_list, List.range_succ_eq_map, List.map_cons, List.map_map]
    congr 3
    · simp
    · apply List.map_congr_left
      intro i _
      simp only [Function.comp]; congr 1; rw [Int.natCast_succ, Int.mul_add]; omega

/-- **C94**, `iota`: it has the `n` numbers `o`, `o + s`, `o + 2s` ..., and there's none when `n` is negative. -/
theorem C94_iota (n o s : Int) (t : CType) :
    Mp.iota n o s = some t ↔ 0 ≤ n ∧ ∃ l, t = .list l ∧ (l.length : Int) = n ∧ ∀ (i : Nat), i < l.length → l[i]? = some (.ic (o + s * i)) := by
  unfold Mp.iota
  constructor
  · intro h
    split at h
    · exact absurd h (by simp)
    · rename_i hn
      rw [iotaN_eq] at h
      refine ⟨by omega, _, (Option.some.inj h).symm, by simp; omega, fun i hi => ?_⟩
      have : i < n.toNat := by simpa using hi
      simp [List.getElem?_map, List.getElem?_range this]
  · rintro ⟨hn, l, rfl, hl, h⟩
    rw [if_neg (by omega), iotaN_eq]
    congr 2
    apply List.ext_getElem?
    intro i
    by_cases hi : i < l.length
    · rw [h i hi, List.getElem?_map, List.getElem?_range (by omega)]; rfl
    · rw [List.getElem?_eq_none (by simp; omega), List.getElem?_eq_none (by omega)]

theorem makelistN_eq (T : CType) : ∀ (n : Nat), Mp.makelistN n T = some (.list (List.replicate n T))
  | 0 => by simp [Mp.makelistN]
  | n + 1 => by simp [Mp.makelistN, makelistN_eq T n, cons_list, List.replicate_succ]

/-- **C94**, `makelist`: it has `T` `n` times, and there's none when `n` is negative. -/
theorem C94_makelist (n : Int) (T t : CType) :
    Mp.makelist n T = some t ↔ ∃ l, t = .list l ∧ (l.length : Int) = n ∧ ∀ a ∈ l, a = T := by
  unfold Mp.makelist
  constructor
  · intro h
    split at h
    · exact absurd h (by simp)
    · rw [makelistN_eq] at h
      refine ⟨_, (Option.some.inj h).symm, by simp; omega, fun a ha => List.eq_of_mem_replicate ha⟩
  · rintro ⟨l, rfl, hl, h⟩
    rw [if_neg (by omega), makelistN_eq, List.eq_replicate_of_mem h]
    congr 3; omega

theorem dropN_list : ∀ (n : Nat) (L : List CType), Mp.dropN (.list L) n = if n ≤ L.length then some (.list (L.drop n)) else none
  | 0, L => by simp [Mp.dropN]
  | n + 1, [] => by simp [Mp.dropN, Mp.rest]
  | n + 1, a :: L => by simp [Mp.dropN, Mp.rest, dropN_list n L]

theorem takeN_list : ∀ (n : Nat) (L : List CType), Mp.takeN (.list L) n = if n ≤ L.length then some (.list (L.take n)) else none
  | 0, L => by simp [Mp.takeN]
  | n + 1, [] => by simp [Mp.takeN, Mp.first]
  | n + 1, a :: L => by
    simp only [Mp.takeN, Mp.first, Mp.rest, takeN_list n L, bind, Option.bind, List.length_cons, Nat.add_le_add_iff_right]
    split
    · rename_i h; split at h <;> simp_all
    · rename_i h; split at h
      · rename_i hl
        rw [if_pos hl, ← Option.some.inj h]; simp [cons_list]
      · exact absurd h (by simp)

/-- **C94**, `drop`: it takes away the first `n` types, and there must be as many. -/
theorem C94_drop (L : List CType) (n : Int) (t : CType) :
    Mp.drop (.list L) n = some t ↔ 0 ≤ n ∧ n ≤ L.length ∧ ∃ a b, L = a ++ b ∧ (a.length : Int) = n ∧ t = .list b := by
  unfold Mp.drop
  constructor
  · intro h
    split at h
    · exact absurd h (by simp)
    · rw [dropN_list] at h
      split at h
      · refine ⟨by omega, by omega, L.take n.toNat, L.drop n.toNat, (List.take_append_drop ..).symm, by simp; omega, (Option.some.inj h).symm⟩
      · exact absurd h (by simp)
  · rintro ⟨h0, h1, a, b, rfl, ha, rfl⟩
    rw [if_neg (by omega), dropN_list, if_pos (by omega), show n.toNat = a.length by omega]
    simp

/-- **C94**, `take`: it keeps the first `n` types, and there must be as many. -/
theorem C94_take (L : List CType) (n : Int) (t : CType) :
    Mp.take (.list L) n = some t ↔ 0 ≤ n ∧ n ≤ L.length ∧ ∃ a b, L = a ++ b ∧ (a.length : Int) = n ∧ t = .list a := by
  unfold Mp.take
  constructor
  · intro h
    split at h
    · exact absurd h (by simp)
    · rw [takeN_list] at h
      split at h
      · refine ⟨by omega, by omega, L.take n.toNat, L.drop n.toNat, (List.take_append_drop ..).symm, by simp; omega, (Option.some.inj h).symm⟩
      · exact absurd h (by simp)
  · rintro ⟨h0, h1, a, b, rfl, ha, rfl⟩
    rw [if_neg (by omega), takeN_list, if_pos (by omega), show n.toNat = a.length by omega]
    simp

theorem ref_one (L : List CType) (i : Int) : Mp.ref (.list L) [i] = if 0 ≤ i then L[i.toNat]? else none := by
  simp only [Mp.ref, Mp.drop, bind, Option.bind, dropN_list]
  by_cases hi : 0 ≤ i
  · rw [if_neg (by omega), if_pos hi]
    by_cases hl : i.toNat ≤ L.length
    · rw [if_pos hl]
      simp only []
      rcases hd : L.drop i.toNat with _ | ⟨a, M⟩
      · have : L.length ≤ i.toNat := by simpa using hd
        simp [Mp.first, List.getElem?_eq_none this]
      · have : L[i.toNat]? = some a := by
          have := congrArg (·[0]?) hd
          simpa using this
        simp [Mp.first, this]
    · rw [if_neg hl, List.getElem?_eq_none (by omega)]
  · rw [if_pos (by omega), if_neg hi]

/-- **C94**, `ref`: with one index it's the type at that position, and there must be one. -/
theorem C94_ref (L : List CType) (i : Int) (t : CType) :
    Mp.ref (.list L) [i] = some t ↔ 0 ≤ i ∧ L[i.toNat]? = some t := by
  rw [ref_one]; split
  · rename_i h; simp [h]
  · rename_i h; simp [h]

/-- **C94**, `ref`: with no indices it's the type itself, and with more, it goes into the lists one by one. -/
theorem C94_ref_path (L : CType) : Mp.ref L [] = some L ∧
    ∀ (I J : List Int) (t : CType), Mp.ref L (I ++ J) = some t ↔ ∃ s, Mp.ref L I = some s ∧ Mp.ref s J = some t := by
  refine ⟨rfl, fun I J t => ?_⟩
  induction I generalizing L with
  | nil => simp [Mp.ref]
  | cons i I ih =>
    simp only [List.cons_append, Mp.ref, bind, Option.bind]
    cases Mp.drop L i with
    | none => simp
    | some d =>
      simp only []
      cases Mp.first d with
      | none => simp
      | some f => exact ih f

/-- **C94**, `get`, `tuple_element` and `tuple_size`. -/
theorem C94_get (L : List CType) : Mp.tupleSize (.list L) = some L.length ∧ ∀ (i : Nat), Mp.get i (.list L) = L[i]? := by
  refine ⟨rfl, fun i => ?_⟩
  simp [Mp.get, Mp.isList, ref_one]

theorem indexifFrom_eq (L : List CType) (Q : CType → Bool) : ∀ (k i : Nat), i + k = L.length →
    ∃ r, Mp.indexifFrom (.list L) (fun A => some (Q A)) k i = some r ∧
      ((r = -1 ∧ ∀ j, i ≤ j → ∀ a, L[j]? = some a → Q a = false) ∨
        ∃ (j : Nat), r = j ∧ i ≤ j ∧ (∃ a, L[j]? = some a ∧ Q a = true) ∧ ∀ m, i ≤ m → m < j → ∀ a, L[m]? = some a → Q a = false)
  | 0, i, h => ⟨-1, rfl, .inl ⟨rfl, fun j hj a ha => by
      rw [List.getElem?_eq_none (by omega)] at ha; exact absurd ha (by simp)⟩⟩
  | k + 1, i, h => by
    obtain ⟨r, hr, hc⟩ := indexifFrom_eq L Q k (i + 1) (by omega)
    have hi : i < L.length := by omega
    have hx : L[i]? = some L[i] := List.getElem?_eq_getElem hi
    simp only [Mp.indexifFrom, hr, bind, Option.bind, ref_one, pure]
    simp only [Int.natCast_nonneg, if_true, Int.toNat_natCast, hx]
    cases hq : Q L[i] with
    | true =>
      exact ⟨i, by simp, .inr ⟨i, rfl, Nat.le_refl _, ⟨_, hx, hq⟩, fun m h1 h2 => by omega⟩⟩
    | false =>
      refine ⟨r, by simp, ?_⟩
      rcases hc with ⟨rfl, hn⟩ | ⟨j, rfl, hj, hb, hn⟩
      · refine .inl ⟨rfl, fun j hj a ha => ?_⟩
        rcases Nat.eq_or_lt_of_le hj with rfl | hlt
        · rw [hx] at ha; cases ha; exact hq
        · exact hn j hlt a ha
      · refine .inr ⟨j, rfl, by omega, hb, fun m h1 h2 a ha => ?_⟩
        rcases Nat.eq_or_lt_of_le h1 with rfl | hlt
        · rw [hx] at ha; cases ha; exact hq
        · exact hn m hlt h2 a ha

/-- **C94**, `indexif`: the position of the first type that is good, or -1 if none is. -/
theorem C94_indexif (L : List CType) (Q : CType → Bool) : ∃ r, Mp.indexif (.list L) (fun A => some (Q A)) = some r ∧
    ((r = -1 ∧ ∀ a ∈ L, Q a = false) ∨
      ∃ (j : Nat), r = j ∧ (∃ a, L[j]? = some a ∧ Q a = true) ∧ ∀ m, m < j → ∀ a, L[m]? = some a → Q a = false) := by
  obtain ⟨r, hr, hc⟩ := indexifFrom_eq L Q L.length 0 (by omega)
  refine ⟨r, by simpa [Mp.indexif, Mp.len] using hr, ?_⟩
  rcases hc with ⟨rfl, hn⟩ | ⟨j, rfl, -, hb, hn⟩
  · refine .inl ⟨rfl, fun a ha => ?_⟩
    obtain ⟨j, hj⟩ := List.mem_iff_getElem?.mp ha
    exact hn j (by omega) a hj
  · exact .inr ⟨j, rfl, hb, fun m => hn m (by omega)⟩

/-- **C94**, `index`: the position of the first `T` in the list, or -1 if it isn't there. -/
theorem C94_index (L : List CType) (T : CType) : ∃ r, Mp.index (.list L) T = some r ∧
    ((r = -1 ∧ T ∉ L) ∨ ∃ (j : Nat), r = j ∧ L[j]? = some T ∧ ∀ m, m < j → L[m]? ≠ some T) := by
  obtain ⟨r, hr, hc⟩ := C94_indexif L (CType.same T)
  refine ⟨r, hr, ?_⟩
  rcases hc with ⟨rfl, hn⟩ | ⟨j, rfl, ⟨a, ha, hq⟩, hn⟩
  · refine .inl ⟨rfl, fun hT => ?_⟩
    have := hn T hT
    rw [(same_iff T T).mpr rfl] at this; exact absurd this (by simp)
  · refine .inr ⟨j, rfl, by rw [ha, (same_iff _ _).mp hq], fun m hm hT => ?_⟩
    have := hn m hm T hT
    rw [(same_iff T T).mpr rfl] at this; exact absurd this (by simp)

/-- **C94**, `apply`. -/
theorem C94_apply (F : List CType → Option CType) (L : List CType) : Mp.apply F (.list L) = F L := rfl

/-- **C94**, `tuple2list` and `list2tuple` are each other's inverse. -/
theorem C94_tuple (a b : CType) : Mp.list2tuple a = some b ↔ Mp.tuple2list b = some a := by
  cases a <;> cases b <;> simp [Mp.list2tuple, Mp.tuple2list, eq_comm]

theorem mapM_first (Ls : List (List CType)) (as : List CType) :
    (Ls.map CType.list).mapM Mp.first = some as ↔ Ls.map (·[0]?) = as.map some := by
  induction Ls generalizing as with
  | nil => cases as <;> simp
  | cons L Ls ih =>
    simp only [List.map_cons, List.mapM_cons, bind, Option.bind, pure]
    cases L with
    | nil => cases as <;> simp [Mp.first]
    | cons a L =>
      simp only [Mp.first]
      cases h : List.mapM Mp.first (Ls.map CType.list) with
      | none =>
        cases as with
        | nil => simp
        | cons b as =>
          have := (ih as).mpr
          rw [h] at this
          simp only [reduceCtorEq, List.map_cons, false_iff]
          intro hc
          simp at hc
          exact absurd (this (by simpa using hc.2)) (by simp)
      | some bs =>
        cases as with
        | nil => simp
        | cons b as =>
          have := ih as
          rw [h] at this
          simp only [Option.some.injEq, List.cons.injEq, List.map_cons, List.getElem?_cons_zero]
          rw [← this]; simp

theorem mapM_rest (Ls : List (List CType)) (h : ∀ L ∈ Ls, L ≠ []) :
    (Ls.map CType.list).mapM Mp.rest = some ((Ls.map List.tail).map CType.list) := by
  induction Ls with
  | nil => rfl
  | cons L Ls ih =>
    simp only [List.map_cons, List.mapM_cons, bind, Option.bind, pure]
    cases L with
    | nil => exact absurd rfl (h [] (by simp))
    | cons a L =>
      rw [ih fun l hl => h l (by simp [hl])]
      simp [Mp.rest]

theorem mapN_iff (F : List CType → Option CType) : ∀ (n : Nat) (Ls : List (List CType)) (t : CType),
    Mp.mapN F n (Ls.map .list) = some t ↔
      ∃ l, t = .list l ∧ l.length = n ∧ ∀ i, i < n → ∃ as, Ls.map (·[i]?) = as.map some ∧ F as = l[i]?
  | 0, Ls, t => by
    simp only [Mp.mapN, Option.some.injEq]
    constructor
    · rintro rfl; exact ⟨[], rfl, rfl, fun i hi => by omega⟩
    · rintro ⟨l, rfl, hl, -⟩; rw [List.length_eq_zero_iff.mp hl]
  | n + 1, Ls, t => by
    simp only [Mp.mapN, bind, Option.bind]
    constructor
    · intro h
      cases hf : List.mapM Mp.first (Ls.map CType.list) with
      | none => rw [hf] at h; exact absurd h (by simp)
      | some as =>
        rw [hf] at h
        have h0 := (mapM_first Ls as).mp hf
        have hne : ∀ L ∈ Ls, L ≠ [] := by
          intro L hL hc
          have : L[0]? ∈ as.map some := by rw [← h0]; exact List.mem_map.mpr ⟨L, hL, rfl⟩
          subst hc
          simp at this
        rw [mapM_rest Ls hne] at h
        simp only [] at h
        cases hF : F as with
        | none => rw [hF] at h; exact absurd h (by simp)
        | some x =>
          rw [hF] at h
          simp only [] at h
          cases hm : Mp.mapN F n ((Ls.map List.tail).map CType.list) with
          | none => rw [hm] at h; exact absurd h (by simp)
          | some s =>
            obtain ⟨l, rfl, hl, hi⟩ := (mapN_iff F n _ s).mp hm
            rw [hm] at h
            simp only [cons_list, Option.some.injEq] at h
            refine ⟨x :: l, h.symm, by simp [hl], fun i hlt => ?_⟩
            cases i with
            | zero => exact ⟨as, h0, by simpa using hF⟩
            | succ i =>
              obtain ⟨bs, hb, hFb⟩ := hi i (by omega)
              refine ⟨bs, ?_, by simpa using hFb⟩
              rw [← hb, List.map_map]
              apply List.map_congr_left
              intro L hL
              simp
    · rintro ⟨l, rfl, hl, hi⟩
      obtain ⟨as, h0, hF⟩ := hi 0 (by omega)
      cases l with
      | nil => simp at hl
      | cons x l =>
        have hne : ∀ L ∈ Ls, L ≠ [] := by
          intro L hL hc
          have : L[0]? ∈ as.map some := by rw [← h0]; exact List.mem_map.mpr ⟨L, hL, rfl⟩
          subst hc
          simp at this
        rw [(mapM_first Ls as).mpr h0, mapM_rest Ls hne]
        simp only []
        rw [hF]
        simp only [List.getElem?_cons_zero]
        rw [(mapN_iff F n (Ls.map List.tail) (.list l)).mpr ⟨l, rfl, by simpa using hl, fun i hlt => ?_⟩]
        · exact cons_list x l
        · obtain ⟨bs, hb, hFb⟩ := hi (i + 1) (by omega)
          refine ⟨bs, ?_, by simpa using hFb⟩
          rw [← hb, List.map_map]
          apply List.map_congr_left
          intro L hL
          simp

/-- **C94**, `map`: as many types as in the first list, and each is that of the types of the lists at that position, that must all be there. -/
theorem C94_map (F : List CType → Option CType) (L0 : List CType) (Ls : List (List CType)) (t : CType) :
    Mp.map F ((L0 :: Ls).map .list) = some t ↔
      ∃ l, t = .list l ∧ l.length = L0.length ∧ ∀ i, i < L0.length → ∃ as, (L0 :: Ls).map (·[i]?) = as.map some ∧ F as = l[i]? := by
  have := mapN_iff F L0.length (L0 :: Ls) t
  rw [← this]
  simp [Mp.map, Mp.len]

/-- **C94**, `map` of a template that is defined for any type, over a single list. -/
theorem C94_map_one (F : List CType → Option CType) (f : CType → CType) (hf : ∀ a, F [a] = some (f a)) (L : List CType) :
    Mp.map F [.list L] = some (.list (L.map f)) := by
  refine (C94_map F L [] _).mpr ⟨_, rfl, by simp, fun i hi => ⟨[L[i]], by simp [List.getElem?_eq_getElem hi], ?_⟩⟩
  simp [hf, List.getElem?_eq_getElem hi]

/-- **C94**, `reverse`: the types in reverse order, before those of the second list. -/
theorem C94_reverse (A B : List CType) : Mp.reverse (.list A) (.list B) = some (.list (A.reverse ++ B)) := by
  show Mp.reverseFrom A (.list B) = _
  induction A generalizing B with
  | nil => simp [Mp.reverseFrom]
  | cons a A ih => simp [Mp.reverseFrom, cons_list, ih]

/-- **C94**, `filter`: the types of the second list that have a condition that isn't 0 in the first, and those that have none. There must be a type for
each condition. -/
theorem C94_filter (c : List Int) (B : List CType) (t : CType) : Mp.filter (.list (c.map .ic)) (.list B) = some t ↔
    c.length ≤ B.length ∧ t = .list (((c.zip B).filter (·.1 ≠ 0)).map (·.2) ++ B.drop c.length) := by
  show Mp.filterFrom (c.map .ic) (.list B) = _ ↔ _
  induction c generalizing B t with
  | nil => simp [Mp.filterFrom, eq_comm]
  | cons x c ih =>
    simp only [List.map_cons, Mp.filterFrom, bind, Option.bind]
    cases B with
    | nil => simp [Mp.take, takeN_list]
    | cons b B =>
      have ht : Mp.take (.list (b :: B)) 1 = some (.list [b]) := (C94_take ..).mpr ⟨by omega, by simp; omega, [b], B, rfl, rfl, rfl⟩
      simp only [ht, Mp.rest]
      cases hf : Mp.filterFrom (c.map .ic) (.list B) with
      | none =>
        simp only [reduceCtorEq, false_iff]
        rintro ⟨h1, -⟩
        have := (ih B _).mpr ⟨by simpa using h1, rfl⟩
        rw [hf] at this; exact absurd this (by simp)
      | some s =>
        obtain ⟨hl, rfl⟩ := (ih B s).mp hf
        by_cases hx : x = 0
        · subst hx; simp [Mp.value, Mp.append, Mp.appendFrom, hl, eq_comm]
        · simp [Mp.value, Mp.append, Mp.appendFrom, hl, hx, eq_comm]

/-- The hypotheses of `C94_map_one` hold of a real template, and the operations are defined on lists that aren't empty. -/
example : Mp.append [.list [.ic 0, .ic 1], .list [.ic 2], .list []] = some (.list [.ic 0, .ic 1, .ic 2]) ∧
    Mp.iota 3 5 (-2) = some (.list [.ic 5, .ic 3, .ic 1]) ∧ Mp.makelist 2 (.list []) = some (.list [.list [], .list []]) ∧
    Mp.drop (.list [.ic 7, .ic 8, .ic 9]) 1 = some (.list [.ic 8, .ic 9]) ∧ Mp.drop (.list [.ic 7]) 2 = none ∧
    Mp.take (.list [.ic 7, .ic 8, .ic 9]) 2 = some (.list [.ic 7, .ic 8]) ∧ Mp.take (.list [.ic 7]) (-1) = none ∧
    Mp.ref (.list [.ic 7, .list [.ic 8, .ic 9]]) [1, 0] = some (.ic 8) ∧ Mp.ref (.list [.ic 7]) [1] = none ∧
    Mp.index (.list [.ic 7, .list [], .ic 3, .list []]) (.list []) = some 1 ∧ Mp.index (.list [.ic 7]) (.ic 8) = some (-1) ∧
    Mp.reverse (.list [.ic 1, .ic 2]) (.list [.ic 3]) = some (.list [.ic 2, .ic 1, .ic 3]) ∧
    Mp.filter (.list [.ic 1, .ic 0]) (.list [.ic 7, .ic 8, .ic 9]) = some (.list [.ic 7, .ic 9]) ∧
    Mp.map (fun as => some (.tuple as)) [.list [.ic 1, .ic 2], .list [.ic 3, .ic 4]] = some (.list [.tuple [.ic 1, .ic 3], .tuple [.ic 2, .ic 4]]) ∧
    Mp.map (fun as => some (.tuple as)) [.list [.ic 1, .ic 2], .list [.ic 3]] = none ∧
    Mp.map (fun as => some (.tuple as)) [.list [.ic 1], .list [.ic 3, .ic 4]] = some (.list [.tuple [.ic 1, .ic 3]]) := by
  refine ⟨rfl, rfl, rfl, rfl, rfl, rfl, rfl, rfl, rfl, rfl, rfl, rfl, rfl, rfl, rfl, rfl⟩

end Ra.Props
