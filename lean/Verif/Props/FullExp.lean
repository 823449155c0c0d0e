import Verif.Spec.Full
import Verif.Props.ViewProgram
import Verif.Props.AgreeOp
import Verif.Props.Tindex
/-!
# Expressions of programs: lemmas for C92
-/

namespace Ra.Props
open Spec

section
variable {V : Type}

/-- Evaluation in a memory `μ` that doesn't change it: `Elt` for the result, `Bad` for a failed check. -/
structure Sees (V : Type) (m : Type → Type) [Monad m] [MonadFault m] [MonadLiftT (Act V) m] where
  Elt : {α : Type} → Mem V → m α → α → Prop
  Bad : {α : Type} → Mem V → m α → Prop
  pure_ : ∀ {α : Type} (μ : Mem V) (a : α), Elt μ (pure a) a
  bind_ : ∀ {α β : Type} {μ : Mem V} {x : m α} {a : α} {f : α → m β} {b : β}, Elt μ x a → Elt μ (f a) b → Elt μ (x >>= f) b
  lift_ : ∀ {α : Type} {μ : Mem V} {y : Act V α} {a : α}, y μ = (.ok a, μ) → Elt μ (liftM y : m α) a
  bad_ : ∀ {α β : Type} {μ : Mem V} {x : m α} {f : α → m β}, Bad μ x → Bad μ (x >>= f)
  next_ : ∀ {α β : Type} {μ : Mem V} {x : m α} {a : α} {f : α → m β}, Elt μ x a → Bad μ (f a) → Bad μ (x >>= f)
  check_ : ∀ {α : Type} (μ : Mem V), Bad μ (fault .check : m α)

def seesAct : Sees V (Act V) where
  Elt μ x a := x μ = (.ok a, μ)
  Bad μ x := x μ = (.error .check, μ)
  pure_ _ _ := rfl
  bind_ h1 h2 := by rw [act_bind_ok h1]; exact h2
  lift_ h := h
  bad_ h := by rw [act_bind, h]
  next_ h1 h2 := by rw [act_bind_ok h1]; exact h2
  check_ _ := rfl

def seesState {γ : Type} : Sees V (StateT γ (Act V)) where
  Elt μ x a := ∀ c, x c μ = (.ok (a, c), μ)
  Bad μ x := ∀ c, x c μ = (.error .check, μ)
  pure_ _ _ _ := rfl
  bind_ {α β μ x a f b} h1 h2 c := by
    show (x c >>= fun p => f p.1 p.2) μ = _
    rw [act_bind_ok (h1 c)]
    exact h2 c
  lift_ {α μ y a} h c := by
    show (y >>= fun a => pure (a, c)) μ = _
    rw [act_bind_ok h]
    rfl
  bad_ {α β μ x f} h c := by
    show (x c >>= fun p => f p.1 p.2) μ = _
    rw [act_bind, h c]
  next_ {α β μ x a f} h1 h2 c := by
    show (x c >>= fun p => f p.1 p.2) μ = _
    rw [act_bind_ok (h1 c)]
    exact h2 c
  check_ _ _ := rfl

variable {m : Type → Type} [Monad m] [LawfulMonad m] [MonadFault m] [MonadLiftT (Act V) m]

/-- The element has the value, or if there's none, the check fails. -/
def Sem (S : Sees V m) (μ : Mem V) (x : m (Lv V)) : Option V → Prop
  | some v => ∃ l, S.Elt μ x l ∧ l.get μ = (.ok v, μ)
  | none => S.Bad μ x

/-- The element is a reference, or if there's none, the check fails. -/
def RefSem (S : Sees V m) (as : List Arr) (vs : List (Value V)) (μ : Mem V) (x : m (Lv V)) : Option (Nat × List Int) → Prop
  | some (i, p) => ∃ a v, ∃ k : Nat, ∃ y, as[i]? = some a ∧ vs[i]? = some v ∧ position v.shape p = k ∧ k < a.n ∧ μ (a.base + k) = some y ∧ v.get p = some y ∧ S.Elt μ x (.ref (a.base + k))
  | none => S.Bad μ x

theorem sem_mapM (S : Sees V m) {μ : Mem V} {xs : List (m (Lv V))} {os : List (Option V)} (h : List.Forall₂ (Sem S μ) xs os) :
    (∀ ys, allOf os = some ys → ∃ ls, S.Elt μ (xs.mapM id) ls ∧ (ls.mapM Lv.get : Act V (List V)) μ = (.ok ys, μ)) ∧ (allOf os = none → S.Bad μ (xs.mapM id)) := by
  induction h with
  | nil =>
    refine ⟨?_, by simp [allOf]⟩
    intro ys h
    simp only [allOf, Option.some.injEq] at h
    subst h
    exact ⟨[], by simpa using S.pure_ μ _, rfl⟩
  | @cons x o xs os h1 h2 ih =>
    obtain ⟨ih1, ih2⟩ := ih
    simp only [List.mapM_cons, id]
    cases o with
    | none =>
      refine ⟨by simp [allOf], fun _ => S.bad_ h1⟩
    | some v =>
      obtain ⟨l, e1, e2⟩ := h1
      constructor
      · intro ys h
        simp only [allOf, Option.map_eq_some_iff] at h
        obtain ⟨ys', h3, rfl⟩ := h
        obtain ⟨ls, g1, g2⟩ := ih1 ys' h3
        refine ⟨l :: ls, S.bind_ e1 (S.bind_ g1 (S.pure_ μ _)), ?_⟩
        simp only [List.mapM_cons]
        rw [act_bind_ok e2, act_bind_ok g2]
        rfl
      · intro h
        simp only [allOf, Option.map_eq_none_iff] at h
        exact S.next_ e1 (S.bad_ (ih2 h))

theorem get_same (l : Lv V) (μ : Mem V) : (l.get μ).2 = μ := by
  cases l with
  | val v => rfl
  | ref p => simp only [Lv.get, Act.read]; split <;> rfl
  | view v => rfl

theorem sem_gets (S : Sees V m) {μ : Mem V} (ls : List (Lv V)) (ys : List V) (h : (ls.mapM Lv.get : Act V (List V)) μ = (.ok ys, μ)) : S.Elt μ (getAll ls) ys := by
  induction ls generalizing ys with
  | nil =>
    cases h
    exact S.pure_ μ _
  | cons l ls ih =>
    rw [List.mapM_cons] at h
    rw [getAll, List.mapM_cons]
    have h0 := get_same l μ
    rcases hl : l.get μ with ⟨_ | v, μ'⟩
    · rw [act_bind, hl] at h
      cases h
    · rw [hl] at h0
      subst h0
      rw [act_bind_ok hl, act_bind] at h
      rcases hm : (ls.mapM Lv.get : Act V (List V)) μ' with ⟨_ | vs, μ2⟩
      · rw [hm] at h
        cases h
      · rw [hm] at h
        cases h
        exact S.bind_ (S.lift_ hl) (S.bind_ (ih _ hm) (S.pure_ _ _))

/-- The element of `map`. -/
theorem sem_map (S : Sees V m) {μ : Mem V} (f : List V → V) {xs : List (m (Lv V))} {os : List (Option V)} (h : List.Forall₂ (Sem S μ) xs os) :
    Sem S μ (mapOp (valOpIn f) xs) ((allOf os).map f) := by
  obtain ⟨h1, h2⟩ := sem_mapM S h
  cases ha : allOf os with
  | none => exact S.bad_ (h2 ha)
  | some ys =>
    obtain ⟨ls, g1, g2⟩ := h1 ys ha
    exact ⟨.val (f ys), S.bind_ g1 (S.bind_ (sem_gets S _ _ g2) (S.pure_ μ _)), rfl⟩

theorem pickStar_get (S : Sees V m) {μ : Mem V} (I p : Nat) (xs : List (m (Lv V))) :
    (pickStar I (I + p) xs : m (Lv V)) = match xs[p]? with
      | some x => x
      | none => fault .check := by
  induction xs generalizing I p with
  | nil => simp [pickStar]
  | cons x xs ih =>
    simp only [pickStar]
    cases p with
    | zero => simp
    | succ p =>
      rw [if_neg (by omega)]
      have := ih (I + 1) p
      rw [show I + 1 + p = I + (p + 1) by omega] at this
      rw [this]
      simp

/-! ### The iterators -/

theorem rank_reframe {m : Type → Type} {α β : Type} {m' : Type → Type} (D : List Nat) (a : Iter m α) (b : Iter m' β) (h : a.rank = b.rank) : (reframe D a).rank = (reframe D b).rank := by
  unfold reframe
  split
  · exact h
  · rfl

theorem rankList_map {m : Type → Type} {α : Type} (t : List (Iter m α)) : rankList t = t.map Iter.rank := by
  induction t with
  | nil => rfl
  | cons a t ih => simp [rankList, ih]

theorem largest_ge (rs : List Nat) : ∀ r ∈ rs, r ≤ largest rs := by
  induction rs with
  | nil => simp
  | cons x rs ih =>
    intro r hr
    simp only [largest]
    rcases List.mem_cons.mp hr with rfl | hr
    · omega
    · have := ih r hr
      omega

theorem largest_mem (rs : List Nat) (h : rs ≠ []) : largest rs ∈ rs := by
  induction rs with
  | nil => exact absurd rfl h
  | cons x rs ih =>
    simp only [largest]
    by_cases hr : rs = []
    · subst hr; simp [largest]
    · have := ih hr
      rcases Nat.le_total x (largest rs) with h' | h'
      · rw [Nat.max_eq_right h']; exact List.mem_cons_of_mem _ this
      · rw [Nat.max_eq_left h']; simp

theorem merge_nones (rs : List Nat) (h : rs ≠ []) : Merge (rs.map fun r => List.replicate r (none : Length)) (List.replicate (largest rs) none) := by
  refine ⟨?_, ?_, fun k n => ?_⟩
  · intro x hx
    obtain ⟨r, hr, rfl⟩ := List.mem_map.mp hx
    simpa using largest_ge rs r hr
  · exact ⟨_, List.mem_map.mpr ⟨_, largest_mem rs h, rfl⟩, by simp⟩
  · constructor
    · intro h
      rw [List.getElem?_replicate] at h
      split at h <;> simp at h
    · rintro ⟨x, hx, hk⟩
      obtain ⟨r, hr, rfl⟩ := List.mem_map.mp hx
      rw [List.getElem?_replicate] at hk
      split at hk <;> simp at hk

theorem verb_nones (cs : List (List Nat)) (rs : List Nat) (h : rs ≠ []) (hf : Fit cs rs) :
    VerbShape cs (rs.map fun r => List.replicate r (none : Length)) (List.replicate (verbRank cs rs) none) := by
  induction cs generalizing rs with
  | nil => exact merge_nones rs h
  | cons c cs ih =>
    obtain ⟨h1, h2⟩ := hf
    have hl := h1.length_eq
    refine ⟨?_, List.replicate (largest (List.zipWith (· - ·) rs c)) none, List.replicate (verbRank cs c) none, by simp [verbRank, List.replicate_append_replicate], ?_, ?_⟩
    · rw [List.forall₂_map_left_iff]
      exact h1.imp fun r c h => by simpa using h
    · have := merge_nones (List.zipWith (· - ·) rs c) (by
        intro e
        have := congrArg List.length e
        simp [← hl] at this
        exact h this)
      convert this using 1
      rw [List.map_zipWith, List.zipWith_map_left]
      congr 1
      funext r c
      simp
    · have := ih c (by rintro rfl; simp at hl; exact h hl) h2
      convert this using 1
      apply List.ext_getElem
      · simp [hl]
      · intro i i1 i2
        simp only [List.length_zipWith, List.length_map] at i1
        have := List.forall₂_iff_get.mp h1
        have h3 := this.2 i (by omega) (by omega)
        simp at h3
        simp only [List.getElem_zipWith, List.getElem_map, List.drop_replicate, List.length_replicate]
        congr 1
        omega

theorem rank_unb {m : Type → Type} [Monad m] (rs : List Nat) (x : Lv V) : HasShapes (rs.map fun r => (.cell (List.replicate r ⟨UNB, 1⟩) 0 fun _ => pure x : Iter m (Lv V))) (rs.map fun r => List.replicate r none) := by
  rw [hasShapes_iff, List.forall₂_map_left_iff, List.forall₂_map_right_iff, List.forall₂_same]
  intro r _
  show List.Forall₂ DimLen _ _
  rw [List.forall₂_iff_get]
  refine ⟨by simp, ?_⟩
  intro i h1 h2
  simp [DimLen]

theorem framematch_ranks {m : Type → Type} {α : Type} (cranks : List (List Nat)) (t : List (Iter m α)) (rs : List Nat) (hr : t.map Iter.rank = rs.map Int.ofNat) (hfit : Fit cranks rs) :
    framematch cranks (t.map fun a => (a.rank.toNat, [])) 0 = some (fm cranks rs) := by
  have hr' : t.map (fun a => a.rank.toNat) = rs := by
    have := congrArg (List.map Int.toNat) hr
    simpa [Function.comp_def] using this
  have hfm := framematch_eq cranks (t.map fun a => (a.rank.toNat, [])) 0 (by simp) (by simpa [Function.comp_def, hr'] using hfit)
  simp only [List.map_map, Function.comp_def, List.length_nil, Nat.sub_zero, hr'] at hfm
  rw [hfm]
  congr 1
  have h1 := length_fm _ _ hfit
  have h2 : t.length = rs.length := by simpa using congrArg List.length hr
  apply List.ext_getElem
  · simp [h1, h2]
  · intro i h1 h2; simp

/-- A rank conjunction whose cell ranks fit. The shapes needn't match. -/
theorem mapVerb_good (f : List (Lv V) → m (Lv V)) (cranks : List (List Nat)) (t : List (Iter m (Lv V))) (rs : List Nat) (hr : t.map Iter.rank = rs.map Int.ofNat) (hw : ∀ a ∈ t, a.WF)
    (hne : t ≠ []) (hfit : Fit cranks rs) :
    mapVerb f cranks t = some (.node (mapOp f) (List.zipWith reframe (fm cranks rs) t)) ∧ (Iter.node (mapOp f) (List.zipWith reframe (fm cranks rs) t)).WF ∧
      (Iter.node (mapOp f) (List.zipWith reframe (fm cranks rs) t)).rank = verbRank cranks rs ∧
      ∀ s, HasShape (Iter.node (mapOp f) (List.zipWith reframe (fm cranks rs) t)) s ↔ ∃ ss, HasShapes t ss ∧ VerbShape cranks ss s := by
  have hfm := framematch_ranks cranks t rs hr hfit
  have hlr : t.length = rs.length := by simpa using congrArg List.length hr
  have hlD := length_fm _ _ hfit
  have hax := fm_axes cranks rs hfit
  have hri : ∀ (i : Nat) (h1 : i < t.length) (h2 : i < rs.length), t[i].rank = rs[i] := by
    intro i h1 h2
    have := congrArg (fun l : List Int => l[i]?) hr
    simpa [h1, h2] using this
  refine ⟨by simp [mapVerb, hfm], ?_, ?_, ?_⟩
  · refine ⟨?_, ?_⟩
    · intro h
      have h1 := congrArg List.length h
      have h2 := List.length_pos_of_ne_nil hne
      simp only [List.length_zipWith, List.length_nil] at h1
      omega
    · rw [wflist_mem]
      intro a ha
      obtain ⟨i, hi, rfl⟩ := List.getElem_of_mem ha
      simp only [List.length_zipWith] at hi
      simp only [List.getElem_zipWith]
      unfold reframe
      split
      · exact hw _ (List.getElem_mem _)
      · obtain ⟨h1, h2⟩ := hax i (by omega) (by omega)
        exact ⟨h2, by rw [h1, hri i (by omega) (by omega)], hw _ (List.getElem_mem _)⟩
  · have hv := verb_nones cranks rs (by rintro rfl; simp at hlr; exact hne hlr) hfit
    obtain ⟨e, h1, h2, _⟩ := C17_conjunction f cranks _ _ (rank_unb rs (.ref 0)) _ hv
    have hru : (rs.map fun r => (.cell (List.replicate r ⟨UNB, 1⟩) 0 fun _ => pure (.ref 0) : Iter m (Lv V))).map Iter.rank = rs.map Int.ofNat := by
      rw [List.map_map]
      apply List.map_congr_left
      intro r _
      simp [Iter.rank]
    have hfu := framematch_ranks cranks _ rs hru hfit
    simp only [mapVerb, hfu] at h1
    injection h1 with h1
    subst h1
    have := h2.fits.1
    simp only [List.length_replicate] at this
    rw [← this]
    simp only [Iter.rank, rankList_map]
    congr 1
    apply List.ext_getElem
    · simp [hlr]
    · intro i i1 i2
      simp only [List.length_map, List.length_zipWith] at i1
      simp only [List.getElem_map, List.getElem_zipWith]
      apply rank_reframe
      rw [hri i (by omega) (by omega)]
      simp [Iter.rank]
  · intro s
    constructor
    · rintro ⟨gs, hgs, hm1, ⟨x, hx, hxl⟩, hm3⟩
      have hgs' := List.forall₂_iff_get.mp (hasShapes_iff.mp hgs)
      have hgl : gs.length = t.length := by
        have := hgs'.1
        simp only [List.length_zipWith] at this
        omega
      have hex : ∀ i : Fin t.length, ∃ s0, HasShape t[i] s0 ∧ Reframed ((fm cranks rs)[i]'(by omega)) s0 (gs[i]'(by omega)) := by
        intro i
        have h1 := hgs'.2 i (by simp; omega) (by omega)
        simp only [List.get_eq_getElem, List.getElem_zipWith] at h1
        obtain ⟨a1, a2⟩ := hax i (by omega) (by omega)
        unfold reframe at h1
        split at h1
        · next hd =>
          have hg : (gs[(i : Nat)]'(by omega)).length = rs[(i : Nat)]'(by omega) := by
            have := h1.fits.1
            rw [hri i (by omega) (by omega)] at this
            omega
          refine ⟨gs[(i : Nat)]'(by omega), h1, ?_⟩
          simp only [Fin.getElem_fin]
          rw [hd, a1, ← hg]
          refine ⟨by simp, by simp, fun h => by have := List.length_pos_of_ne_nil h; simp; omega, ?_, ?_⟩
          · intro l k h
            rw [List.getElem?_eq_some_iff] at h
            obtain ⟨h3, h4⟩ := h
            simp at h4
            rw [h4]
          · intro k h1 h2
            simp at h2
            omega
        · obtain ⟨_, s0, h2, h3⟩ := h1
          exact ⟨s0, h2, h3⟩
      choose ss hs1 hs2 using hex
      have hlen : (List.ofFn ss).map List.length = rs := by
        apply List.ext_getElem
        · simp [hlr]
        · intro i i1 i2
          simp only [List.length_map, List.length_ofFn] at i1
          have := (hs1 ⟨i, i1⟩).fits.1
          simp only [Fin.getElem_fin] at this
          rw [hri i (by omega) (by omega)] at this
          simp only [List.getElem_map, List.getElem_ofFn]
          omega
      refine ⟨List.ofFn ss, ?_, fmSpec_inv _ _ _ (by
        intro h
        have := congrArg List.length h
        simp at this
        exact hne this) (by rw [hlen]; exact hfit) ?_⟩
      · rw [hasShapes_iff, List.forall₂_iff_get]
        refine ⟨by simp, fun i h1 h2 => ?_⟩
        simpa using hs1 ⟨i, h1⟩
      · rw [hlen]
        refine ⟨by simp [hlD, hlr], ?_, ?_, ?_, ?_, ?_⟩
        · intro i h1 h2
          simp only [List.length_ofFn] at h2
          have := (hs2 ⟨i, h2⟩).1
          simpa using this
        · intro d hd
          obtain ⟨i, hi, rfl⟩ := List.getElem_of_mem hd
          exact (hax i hi (by omega)).2
        · intro d hd k hk
          obtain ⟨i, hi, rfl⟩ := List.getElem_of_mem hd
          have h1 := (hs2 ⟨i, by omega⟩).2.1 k hk
          have h2 := hm1 (gs[i]'(by omega)) (by simp)
          simp only [Fin.getElem_fin] at h1
          omega
        · intro hs
          obtain ⟨i, hi, rfl⟩ := List.getElem_of_mem hx
          refine ⟨_, List.getElem_mem (l := fm cranks rs) (n := i) (by omega), ?_⟩
          have := (hs2 ⟨i, by omega⟩).2.2.1 (fun h => by
            simp only [Fin.getElem_fin] at h
            rw [h] at hxl; exact hs (List.eq_nil_of_length_eq_zero hxl.symm))
          simp only [Fin.getElem_fin] at this
          rw [hxl] at this
          exact this
        · intro k n
          rw [hm3]
          constructor
          · rintro ⟨x, hx, hxk⟩
            obtain ⟨i, hi, rfl⟩ := List.getElem_of_mem hx
            have h2 := hs2 ⟨i, by omega⟩
            simp only [Fin.getElem_fin] at h2
            have hkl := (List.getElem?_eq_some_iff.mp hxk).1
            have hkm : k ∈ (fm cranks rs)[i]'(by omega) := by
              by_contra hc
              have := h2.2.2.2.2 k hkl hc
              rw [this] at hxk; simp at hxk
            obtain ⟨l, hl', hlk⟩ := List.getElem_of_mem hkm
            have h1 : ((fm cranks rs)[i]'(by omega))[l]? = some k := by rw [List.getElem?_eq_getElem hl', hlk]
            refine ⟨i, l, _, ss ⟨i, by omega⟩, List.getElem?_eq_getElem (by omega), by simp; omega, h1, ?_⟩
            rw [← h2.2.2.2.1 l k h1, hxk]
          · rintro ⟨i, l, d, x, hd, hx, hdl, hxl⟩
            obtain ⟨hi, rfl⟩ := List.getElem?_eq_some_iff.mp hd
            obtain ⟨hi', rfl⟩ := List.getElem?_eq_some_iff.mp hx
            simp only [List.length_ofFn] at hi'
            have h2 := hs2 ⟨i, hi'⟩
            simp only [Fin.getElem_fin] at h2
            refine ⟨gs[i]'(by omega), by simp, ?_⟩
            rw [h2.2.2.2.1 l k hdl]
            simpa using hxl
    · rintro ⟨ss, h1, h2⟩
      obtain ⟨e, he, hsh, _⟩ := C17_conjunction f cranks t ss h1 s h2
      simp only [mapVerb, hfm] at he
      injection he with he
      rw [← he] at hsh
      exact hsh

theorem merge_length {ss : List (List Length)} {s : List Length} (h : Merge ss s) : s.length = largest (ss.map List.length) := by
  obtain ⟨h1, ⟨x, hx, hxl⟩, _⟩ := h
  apply Nat.le_antisymm
  · rw [← hxl]
    exact largest_ge _ _ (List.mem_map_of_mem hx)
  · obtain ⟨y, hy, e⟩ := List.mem_map.mp (largest_mem (ss.map List.length) (by intro e; simp at e; subst e; simp at hx))
    rw [← e]
    exact h1 y hy

theorem verbShape_length {cs : List (List Nat)} {ss : List (List Length)} {s : List Length} (h : VerbShape cs ss s) : s.length = verbRank cs (ss.map List.length) ∧ ss ≠ [] := by
  induction cs generalizing ss s with
  | nil =>
    refine ⟨merge_length h, ?_⟩
    rintro rfl
    obtain ⟨_, ⟨x, hx, _⟩, _⟩ := h
    simp at hx
  | cons c cs ih =>
    obtain ⟨h1, sf, sr, rfl, h2, h3⟩ := h
    obtain ⟨i1, i2⟩ := ih h3
    have e1 : (List.zipWith (fun (x : List Length) c => x.drop (x.length - c)) ss c).map List.length = c := by
      have hl := h1.length_eq
      apply List.ext_getElem
      · simp [hl]
      · intro i g1 g2
        have := (List.forall₂_iff_get.mp h1).2 i (by simp at g1; omega) g2
        simp at this ⊢
        omega
    have e2 : (List.zipWith (fun (x : List Length) c => x.take (x.length - c)) ss c).map List.length = List.zipWith (· - ·) (ss.map List.length) c := by
      rw [List.map_zipWith, List.zipWith_map_left]
      congr 1
      funext x c
      simp
    refine ⟨?_, ?_⟩
    · rw [List.length_append, merge_length h2, i1, e1, e2, verbRank]
    · rintro rfl
      simp at i2

/-! ### Array subscripts -/

/-- The subscripts for a mask. -/
def maskSubs : List Bool → List (Iter m (Lv V)) → List (ArrSub m (Lv V))
  | true :: mk, t :: ts => .array t [] :: maskSubs mk ts
  | false :: mk, ts => .sub (.keep 1) :: maskSubs mk ts
  | _, _ => []

theorem arrs_mask (mk : List Bool) (ts : List (Iter m (Lv V))) (h : mk.count true = ts.length) : arrs (maskSubs mk ts) = ts := by
  induction mk generalizing ts with
  | nil => simp at h; simp [maskSubs, arrs, List.eq_nil_of_length_eq_zero h.symm]
  | cons b mk ih =>
    cases b with
    | true =>
      cases ts with
      | nil => simp at h
      | cons t ts => simp only [maskSubs, arrs]; rw [ih ts (by simpa using h)]
    | false => simp only [maskSubs, arrs]; exact ih ts (by simpa using h)

theorem fromb_mask (mk : List Bool) (ts : List (Iter m (Lv V))) (h : mk.count true = ts.length) (pl : Int) (bk : Nat) (dims : List Dim) (hl : mk.length ≤ dims.length) :
    fromb pl bk dims (mk.map fun a => if a then .array else .dots (some 1)) = .ok (pl, dims, dsOf bk (maskSubs mk ts)) := by
  induction mk generalizing ts bk dims with
  | nil => simp [fromb, maskSubs, dsOf]
  | cons b mk ih =>
    cases dims with
    | nil => simp at hl
    | cons d dims =>
      simp only [List.length_cons, Nat.add_le_add_iff_right] at hl
      cases b with
      | true =>
        cases ts with
        | nil => simp at h
        | cons t ts =>
          simp only [List.map_cons, if_true, fromb, ih ts (by simpa using h) (bk+1) dims hl, maskSubs, dsOf]
          rfl
      | false =>
        simp only [List.map_cons, Bool.false_eq_true, if_false, fromb, List.length_cons, List.drop_one, List.tail_cons, ih ts (by simpa using h) (bk+1) dims hl, maskSubs, dsOf]
        rw [if_neg (by omega)]
        rfl

/-- The ranks of the arguments of the outer product. -/
def gatherRanks : List Bool → Nat → List Nat → List Nat
  | true :: mk, r, q :: rs => q :: gatherRanks mk (r - 1) rs
  | false :: mk, r, rs => 1 :: gatherRanks mk (r - 1) rs
  | _, r, _ => List.replicate r 1

theorem sum_gatherRanks (mk : List Bool) (r : Nat) (rs : List Nat) : (gatherRanks mk r rs).sum = gatherRank mk r rs := by
  induction mk generalizing r rs with
  | nil => simp [gatherRanks, gatherRank]
  | cons b mk ih =>
    cases b with
    | true => cases rs <;> simp [gatherRanks, gatherRank, ih]
    | false => simp [gatherRanks, gatherRank, ih]

/-- Their shapes. -/
def gatherShapes : List Bool → List Nat → List (List Length) → List (List Length)
  | true :: mk, _ :: b, s :: ss => s :: gatherShapes mk b ss
  | false :: mk, n :: b, ss => [some n] :: gatherShapes mk b ss
  | _, b, _ => b.map fun n => [some n]

theorem gatherShapes_iff (mk : List Bool) (b : List Nat) (ss : List (List Length)) (h : mk.count true = ss.length) (hl : mk.length ≤ b.length) (s : List Length) :
    gatherShape mk b ss = some s ↔ s = (gatherShapes mk b ss).flatten := by
  have : gatherShape mk b ss = some (gatherShapes mk b ss).flatten := by
    induction mk generalizing b ss with
    | nil =>
      simp at h
      have h := List.eq_nil_of_length_eq_zero h.symm
      subst h
      simp only [gatherShape, gatherShapes]
      congr 1
      clear hl
      induction b with
      | nil => rfl
      | cons n b ih => simp [ih]
    | cons a mk ih =>
      cases b with
      | nil => simp at hl
      | cons n b =>
        simp only [List.length_cons, Nat.add_le_add_iff_right] at hl
        cases a with
        | true =>
          cases ss with
          | nil => simp at h
          | cons t ss => simp [gatherShape, gatherShapes, ih b ss (by simpa using h) hl]
        | false => simp [gatherShape, gatherShapes, ih b ss (by simpa using h) hl]
  rw [this, Option.some.injEq]
  exact eq_comm

/-- The mask has as many array subscripts as there are. -/
theorem gatherShape_count {mk : List Bool} {b : List Nat} {ss : List (List Length)} {s : List Length} (h : gatherShape mk b ss = some s) : mk.count true = ss.length ∧ mk.length ≤ b.length := by
  induction mk generalizing b ss s with
  | nil =>
    cases ss with
    | nil => simp
    | cons t ss => simp [gatherShape] at h
  | cons a mk ih =>
    cases b with
    | nil => cases a <;> simp [gatherShape] at h
    | cons n b =>
      cases a with
      | true =>
        cases ss with
        | nil => simp [gatherShape] at h
        | cons t ss =>
          simp only [gatherShape, Option.map_eq_some_iff] at h
          obtain ⟨_, h, _⟩ := h
          have := ih h
          simpa using this
      | false =>
        simp only [gatherShape, Option.map_eq_some_iff] at h
        obtain ⟨_, h, _⟩ := h
        have := ih h
        simpa using this

theorem length_gatherShapes (mk : List Bool) (b : List Nat) (ss : List (List Length)) (h : mk.count true = ss.length) (hl : mk.length ≤ b.length) :
    (gatherShapes mk b ss).map List.length = gatherRanks mk b.length (ss.map List.length) := by
  induction mk generalizing b ss with
  | nil =>
    simp only [gatherShapes, gatherRanks, List.map_map]
    exact List.map_eq_replicate_iff.mpr (by simp)
  | cons a mk ih =>
    cases b with
    | nil => simp at hl
    | cons n b =>
      simp only [List.length_cons, Nat.add_le_add_iff_right] at hl
      cases a with
      | true =>
        cases ss with
        | nil => simp at h
        | cons t ss => simpa [gatherShapes, gatherRanks] using ih b ss (by simpa using h) hl
      | false => simpa [gatherShapes, gatherRanks] using ih b ss (by simpa using h) hl

theorem length_flatten_gather {mk : List Bool} {b : List Nat} {ss : List (List Length)} {s : List Length} (h : gatherShape mk b ss = some s) :
    s.length = gatherRank mk b.length (ss.map List.length) := by
  obtain ⟨h1, h2⟩ := gatherShape_count h
  rw [(gatherShapes_iff mk b ss h1 h2 s).mp h, List.length_flatten, length_gatherShapes mk b ss h1 h2, sum_gatherRanks]

theorem iot_shape [IndexLike (Lv V)] (d : Dim) (n : Nat) (h : d.len = n) (s : List Length) : HasShape (iot d : Iter m (Lv V)) s ↔ s = [some n] := by
  have hs : HasShape (iot d : Iter m (Lv V)) [some n] := List.Forall₂.cons (by simpa [DimLen] using h) .nil
  exact ⟨fun h => hasShape_unique h hs, fun h => h ▸ hs⟩

theorem rank_iot [IndexLike (Lv V)] (d : Dim) : (iot d : Iter m (Lv V)).rank = 1 := by simp [iot, Iter.rank]

theorem hasShapes_iots [IndexLike (Lv V)] (dims : List Dim) (b : List Nat) (hb : dims.map Dim.len = b.map Nat.cast) (sss : List (List Length)) :
    HasShapes (dims.map iot : List (Iter m (Lv V))) sss ↔ sss = b.map fun n => [some n] := by
  induction dims generalizing b sss with
  | nil =>
    cases b with
    | nil => simp [HasShapes]
    | cons n b => simp at hb
  | cons d dims ih =>
    cases b with
    | nil => simp at hb
    | cons n b =>
      simp only [List.map_cons, List.cons.injEq] at hb
      simp only [List.map_cons, HasShapes, iot_shape d n hb.1, ih b hb.2]
      constructor
      · rintro ⟨s, ss', rfl, rfl, rfl⟩; rfl
      · rintro rfl; exact ⟨_, _, rfl, rfl, rfl⟩

/-- The arguments of the outer product: their ranks, and their shapes. -/
theorem bargs_mask [IndexLike (Lv V)] (mk : List Bool) (ts : List (Iter m (Lv V))) (dims : List Dim) (b : List Nat) (rs : List Nat) (hb : dims.map Dim.len = b.map Nat.cast)
    (h : mk.count true = ts.length) (hl : mk.length ≤ b.length) (hr : ts.map Iter.rank = rs.map Int.ofNat) (hw : ∀ a ∈ ts, a.WF) :
    (bargs (maskSubs mk ts) dims).map Iter.rank = (gatherRanks mk b.length rs).map Int.ofNat ∧ (∀ a ∈ bargs (maskSubs mk ts) dims, a.WF) ∧
      (∀ sss, HasShapes (bargs (maskSubs mk ts) dims) sss ↔ ∃ ss, HasShapes ts ss ∧ sss = gatherShapes mk b ss) ∧ (ts ≠ [] → bargs (maskSubs mk ts) dims ≠ []) := by
  induction mk generalizing ts dims b rs with
  | nil =>
    simp only [List.count_nil] at h
    have h := List.eq_nil_of_length_eq_zero h.symm
    subst h
    have hlen : dims.length = b.length := by simpa using congrArg List.length hb
    refine ⟨?_, ?_, fun sss => ?_, fun h => absurd rfl h⟩
    · simp only [maskSubs, bargs, gatherRanks, List.map_map, List.map_replicate, ← hlen]
      exact List.map_eq_replicate_iff.mpr (by simp [rank_iot])
    · intro a ha
      simp only [maskSubs, bargs, List.mem_map] at ha
      obtain ⟨d, hd, rfl⟩ := ha
      have : d.len ∈ dims.map Dim.len := List.mem_map_of_mem hd
      rw [hb] at this
      obtain ⟨n, _, hn⟩ := List.mem_map.mp this
      exact ((iot_shape d n hn.symm [some n]).mpr rfl).wf
    · simp only [maskSubs, bargs, gatherShapes, hasShapes_iots dims b hb, HasShapes, exists_eq_left]
  | cons a mk ih =>
    cases b with
    | nil => simp at hl
    | cons n b =>
      cases dims with
      | nil => simp at hb
      | cons d dims =>
        simp only [List.map_cons, List.cons.injEq] at hb
        simp only [List.length_cons, Nat.add_le_add_iff_right] at hl
        cases a with
        | true =>
          cases ts with
          | nil => simp at h
          | cons t ts =>
            cases rs with
            | nil => simp at hr
            | cons r rs =>
              simp only [List.map_cons, List.cons.injEq] at hr
              obtain ⟨i1, i2, i3, _⟩ := ih ts dims b rs hb.2 (by simpa using h) hl hr.2 (fun a ha => hw a (by simp [ha]))
              simp only [maskSubs, bargs, List.drop_one, List.tail_cons]
              refine ⟨by simp [hr.1, i1, gatherRanks], ?_, fun sss => ?_, by simp⟩
              · intro a ha
                rcases List.mem_cons.mp ha with rfl | ha
                · exact hw _ (by simp)
                · exact i2 a ha
              · simp only [HasShapes, i3]
                constructor
                · rintro ⟨s, ss', rfl, h1, ss, h2, rfl⟩
                  exact ⟨s :: ss, ⟨s, ss, rfl, h1, h2⟩, rfl⟩
                · rintro ⟨_, ⟨s, ss, rfl, h1, h2⟩, rfl⟩
                  exact ⟨s, _, rfl, h1, ss, h2, rfl⟩
        | false =>
          obtain ⟨i1, i2, i3, _⟩ := ih ts dims b rs hb.2 (by simpa using h) hl hr hw
          simp only [maskSubs, bargs, List.drop_one, List.tail_cons, List.take_succ_cons, List.take_zero, List.map_cons, List.map_nil, List.singleton_append]
          refine ⟨by simp [rank_iot, i1, gatherRanks], ?_, fun sss => ?_, by simp⟩
          · intro a ha
            rcases List.mem_cons.mp ha with rfl | ha
            · exact ((iot_shape d n hb.1 [some n]).mpr rfl).wf
            · exact i2 a ha
          · simp only [HasShapes, i3, iot_shape d n hb.1]
            constructor
            · rintro ⟨s, ss', rfl, rfl, ss, h2, rfl⟩
              exact ⟨ss, h2, rfl⟩
            · rintro ⟨ss, h2, rfl⟩
              exact ⟨_, _, rfl, rfl, ss, h2, rfl⟩

theorem verbShape_unique {cs : List (List Nat)} {ss : List (List Length)} {s s' : List Length} (h : VerbShape cs ss s) (h' : VerbShape cs ss s') : s = s' := by
  induction cs generalizing ss s s' with
  | nil => exact C02_unique _ _ _ h h'
  | cons c cs ih =>
    obtain ⟨_, sf, sr, rfl, h1, h2⟩ := h
    obtain ⟨_, sf', sr', rfl, h1', h2'⟩ := h'
    rw [C02_unique _ _ _ h1 h1', ih h2 h2']

theorem verbRank_outer (rs : List Nat) (h : rs ≠ []) : verbRank (fromuLoop rs 1) rs = rs.sum ∧ Fit (fromuLoop rs 1) rs := by
  have hv := verbShape_outer [] (rs.map fun r => List.replicate r (none : Length)) (by simpa using h)
  simp only [List.nil_append, List.length_nil, List.replicate_zero, Nat.zero_add, List.map_map, Function.comp_def, List.length_replicate, List.map_id'] at hv
  have h1 := (verbShape_length hv).1
  have h2 := hv.fit
  simp only [List.map_map, Function.comp_def, List.length_replicate, List.map_id', List.length_flatten] at h1 h2
  exact ⟨h1.symm, h2⟩

/-- A view with array subscripts. -/
theorem gather_good (n : IndexLike V) (w : View) (b : List Nat) (hb : w.dims.map Dim.len = b.map Nat.cast) (mk : List Bool) (ts : List (Iter m (Lv V))) (rs : List Nat)
    (h : mk.count true = ts.length) (hl : mk.length ≤ b.length) (hr : ts.map Iter.rank = rs.map Int.ofNat) (hw : ∀ a ∈ ts, a.WF) (hne : ts ≠ []) :
    ∃ e, w.gather n mk ts = .ok (some e) ∧ e.WF ∧ e.rank = gatherRank mk b.length rs ∧ (∀ s, HasShape e s ↔ ∃ ss, HasShapes ts ss ∧ gatherShape mk b ss = some s) ∧
      fromOp (gatherOp n w) (@bargs m (Lv V) _ (lvIndex n) (maskSubs mk ts) w.dims) = some e := by
  letI := lvIndex n
  have hlen : w.dims.length = b.length := by simpa using congrArg List.length hb
  have hd : ∀ d ∈ w.dims, 0 ≤ d.len := by
    intro d hd
    have : d.len ∈ w.dims.map Dim.len := List.mem_map_of_mem hd
    rw [hb] at this
    obtain ⟨k, _, hk⟩ := List.mem_map.mp this
    omega
  obtain ⟨g1, g2, g3, g4⟩ := bargs_mask mk ts w.dims b rs hb h hl hr hw
  have hne' := g4 hne
  have hR : (bargs (maskSubs mk ts) w.dims).map (fun a => a.rank.toNat) = gatherRanks mk b.length rs := by
    have := congrArg (List.map Int.toNat) g1
    simpa [Function.comp_def] using this
  have hRne : gatherRanks mk b.length rs ≠ [] := by
    intro e
    rw [e] at hR
    simp at hR
    exact hne' hR
  obtain ⟨o1, o2⟩ := verbRank_outer _ hRne
  obtain ⟨q1, q2, q3, q4⟩ := mapVerb_good (gatherOp n w) (fromuLoop (gatherRanks mk b.length rs) 1) _ _ g1 g2 hne' o2
  have hfr : fromOp (gatherOp n w) (bargs (maskSubs mk ts) w.dims) = some (.node (mapOp (gatherOp n w))
      (List.zipWith reframe (fm (fromuLoop (gatherRanks mk b.length rs) 1) (gatherRanks mk b.length rs)) (bargs (maskSubs mk ts) w.dims))) := by
    rw [fromOp, hR]; exact q1
  have key : ∀ ss, HasShapes ts ss → mk.count true = ss.length ∧ VerbShape (fromuLoop (gatherRanks mk b.length rs) 1) (gatherShapes mk b ss) (gatherShapes mk b ss).flatten := by
    intro ss h3
    have hc : mk.count true = ss.length := by rw [h]; exact (hasShapes_iff.mp h3).length_eq
    have hrs : rs = ss.map List.length := by
      rw [← Forall2_rank (hasShapes_iff.mp h3)]
      have := congrArg (List.map Int.toNat) hr
      simpa [Function.comp_def] using this.symm
    have hv := verbShape_outer [] (gatherShapes mk b ss) (by
      intro e
      have := length_gatherShapes mk b ss hc hl
      rw [e, ← hrs] at this
      exact hRne (by simpa using this.symm))
    simp only [List.nil_append, List.length_nil, List.replicate_zero, Nat.zero_add, length_gatherShapes mk b ss hc hl, ← hrs] at hv
    exact ⟨hc, hv⟩
  refine ⟨_, ?_, q2, by rw [q3, o1, sum_gatherRanks], fun s => ?_, hfr⟩
  · have hu := fromuArgs_eq (m := m) (α := Lv V) w.dims hd (maskSubs mk ts) 0 0 (Nat.le_refl _)
    rw [arrs_mask mk ts h] at hu
    simp only [List.take_zero, List.drop_nil, List.map_nil, List.nil_append, List.drop_zero] at hu
    simp only [View.gather, fromb_mask mk ts h w.cp 0 w.dims (by omega), hu, bind, Except.bind, pure, Except.pure]
    rw [hfr]
  · rw [q4]
    constructor
    · rintro ⟨sss, h1, h2⟩
      obtain ⟨ss, h3, rfl⟩ := (g3 sss).mp h1
      obtain ⟨hc, hv⟩ := key ss h3
      exact ⟨ss, h3, (gatherShapes_iff mk b ss hc hl s).mpr (verbShape_unique h2 hv)⟩
    · rintro ⟨ss, h1, h2⟩
      obtain ⟨hc, hv⟩ := key ss h1
      rw [(gatherShapes_iff mk b ss hc hl s).mp h2]
      exact ⟨_, (g3 _).mpr ⟨ss, h1, rfl⟩, hv⟩

/-- The indices that go to each array subscript. -/
def gatherPieces : List Bool → List Nat → List Int → List (List Int)
  | true :: mk, q :: rs, j => j.take q :: gatherPieces mk rs (j.drop q)
  | false :: mk, rs, j => gatherPieces mk rs (j.drop 1)
  | _, _, _ => []

theorem inRange_append {s t : List Length} {j : List Int} (h : InRange (s ++ t) j) : InRange s (j.take s.length) ∧ InRange t (j.drop s.length) := by
  obtain ⟨h1, h2⟩ := h
  simp only [List.length_append] at h1
  refine ⟨⟨by simp; omega, fun k n hk => ?_⟩, by simp; omega, fun k n hk => ?_⟩
  · have hk' := (List.getElem?_eq_some_iff.mp hk).1
    have := h2 k n (by rw [List.getElem?_append_left hk']; exact hk)
    simpa [List.getD_eq_getElem?_getD, List.getElem?_take, hk'] using this
  · have := h2 (s.length + k) n (by rw [List.getElem?_append_right (by omega)]; simpa using hk)
    simpa [List.getD_eq_getElem?_getD] using this

theorem inRange_gather {mk : List Bool} {b : List Nat} {ss : List (List Length)} {s : List Length} (h : gatherShape mk b ss = some s) {j : List Int} (hj : InRange s j) :
    List.Forall₂ InRange ss (gatherPieces mk (ss.map List.length) j) := by
  induction mk generalizing b ss s j with
  | nil =>
    cases ss with
    | nil => simp [gatherPieces]
    | cons t ss => simp [gatherShape] at h
  | cons a mk ih =>
    cases b with
    | nil => cases a <;> simp [gatherShape] at h
    | cons n b =>
      cases a with
      | true =>
        cases ss with
        | nil => simp [gatherShape] at h
        | cons t ss =>
          simp only [gatherShape, Option.map_eq_some_iff] at h
          obtain ⟨s', h, rfl⟩ := h
          obtain ⟨h1, h2⟩ := inRange_append hj
          exact .cons h1 (ih h h2)
      | false =>
        simp only [gatherShape, Option.map_eq_some_iff] at h
        obtain ⟨s', h, rfl⟩ := h
        have := (inRange_append (s := [some n]) (t := s') hj).2
        exact ih h this

theorem within_iff (b : List Nat) (x : List Int) (h : x.length = b.length) : within (b.map some) x = true ↔ InRange (b.map some) x := by
  induction b generalizing x with
  | nil => simp at h; subst h; simp [within, InRange]
  | cons n b ih =>
    cases x with
    | nil => simp at h
    | cons i x =>
      simp only [List.length_cons, Nat.add_right_cancel_iff] at h
      simp only [List.map_cons, within, Bool.and_eq_true, decide_eq_true_eq, ih x h]
      constructor
      · rintro ⟨⟨h1, h2⟩, h3, h4⟩
        refine ⟨by simpa using h3, fun k l hk => ?_⟩
        cases k with
        | zero => simp at hk; subst hk; simp; omega
        | succ k => simpa using h4 k l (by simpa using hk)
      · intro hr
        refine ⟨by simpa using hr.2 0 n (by simp), by simpa using hr.1, fun k l hk => by simpa using hr.2 (k+1) l (by simpa using hk)⟩

theorem allOf_cons (o : Option V) (os : List (Option V)) : allOf (o :: os) = o.bind fun x => (allOf os).map (x :: ·) := by cases o <;> rfl

theorem act_read {μ : Mem V} {p : Int} {y : V} (h : μ p = some y) : (Lv.get (.ref p) : Act V V) μ = (.ok y, μ) := by simp [Lv.get, Act.read, h]

theorem sem_iot (S : Sees V m) {μ : Mem V} (n : IndexLike V) (d : Dim) (i : List Int) (hi : i ≠ []) : Sem S μ (elem (@iot m (Lv V) _ (lvIndex n) d) i) (some (n.ofIdx (i.headD 0))) := by
  cases i with
  | nil => exact absurd rfl hi
  | cons x i =>
    refine ⟨.val (n.ofIdx x), ?_, rfl⟩
    have : elem (@iot m (Lv V) _ (lvIndex n) d) (x :: i) = pure (.val (n.ofIdx x)) := by
      simp [iot, elem, dot]
      rfl
    rw [this]
    exact S.pure_ μ _

theorem sem_iots (S : Sees V m) {μ : Mem V} (n : IndexLike V) (dims : List Dim) (j : List Int) (hj : dims.length ≤ j.length) :
    List.Forall₂ (Sem S μ) (List.zipWith elem (dims.map (@iot m (Lv V) _ (lvIndex n))) (pieces (List.replicate dims.length 1) j)) ((j.take dims.length).map fun x => some (n.ofIdx x)) := by
  induction dims generalizing j with
  | nil => simp
  | cons d dims ih =>
    cases j with
    | nil => simp at hj
    | cons x j =>
      simp only [List.length_cons, Nat.add_le_add_iff_right] at hj
      exact .cons (sem_iot S n d [x] (by simp)) (ih j hj)

theorem allOf_somes (xs : List V) : allOf (xs.map some) = some xs := by
  induction xs with
  | nil => rfl
  | cons x xs ih => simp [allOf, ih]

/-- The elements of the arguments. -/
theorem gather_args (S : Sees V m) {μ : Mem V} (n : IndexLike V) (mk : List Bool) (ts : List (Iter m (Lv V))) (gs : List (List Int → Option V)) (dims : List Dim) (b : List Nat)
    (ss : List (List Length)) (hb : dims.length = b.length) (h : mk.count true = ss.length) (h1 : ts.length = ss.length) (h2 : gs.length = ss.length) (hl : mk.length ≤ b.length) (j : List Int)
    (hj : gatherRank mk b.length (ss.map List.length) ≤ j.length)
    (hs : List.Forall₂ (Sem S μ) (List.zipWith elem ts (gatherPieces mk (ss.map List.length) j)) (List.zipWith (fun g j => g j) gs (gatherPieces mk (ss.map List.length) j))) :
    ∃ os, List.Forall₂ (Sem S μ) (List.zipWith elem (@bargs m (Lv V) _ (lvIndex n) (maskSubs mk ts) dims) (pieces (gatherRanks mk b.length (ss.map List.length)) j)) os ∧
      (allOf os).map (List.map n.toIdx) = gathered n.toIdx mk b.length (ss.map List.length) gs j ∧ os.length = b.length := by
  letI := lvIndex n
  induction mk generalizing ts gs dims b ss j with
  | nil =>
    simp only [List.count_nil] at h
    have h := List.eq_nil_of_length_eq_zero h.symm
    subst h
    simp only [gatherRank] at hj
    refine ⟨(j.take b.length).map fun x => some (n.ofIdx x), ?_, ?_, by simp [hj]⟩
    · simp only [maskSubs, bargs, gatherRanks, ← hb]
      exact sem_iots S n dims j (by omega)
    · have := allOf_somes ((j.take b.length).map n.ofIdx)
      simp only [List.map_map, Function.comp_def] at this
      rw [this]
      simp [gathered, Function.comp_def, n.toIdx_ofIdx]
  | cons a mk ih =>
    cases b with
    | nil => simp at hl
    | cons l b =>
      cases dims with
      | nil => simp at hb
      | cons d dims =>
        simp only [List.length_cons, Nat.add_le_add_iff_right, Nat.add_right_cancel_iff] at hl hb
        cases a with
        | true =>
          cases ss with
          | nil => simp at h
          | cons s ss =>
            cases ts with
            | nil => simp at h1
            | cons t ts =>
              cases gs with
              | nil => simp at h2
              | cons g gs =>
                simp only [List.map_cons, gatherPieces, List.zipWith_cons_cons] at hs
                simp only [List.map_cons, gatherRank, List.length_cons, Nat.add_sub_cancel] at hj
                simp only [List.length_cons, Nat.add_right_cancel_iff] at h1 h2
                cases hs with
                | cons k1 k2 =>
                  obtain ⟨os, i1, i2, i3⟩ := ih ts gs dims b ss hb (by simpa using h) h1 h2 hl (j.drop s.length) (by simp; omega) k2
                  refine ⟨g (j.take s.length) :: os, ?_, ?_, by simp [i3]⟩
                  · simp only [maskSubs, bargs, List.drop_one, List.tail_cons, List.map_cons, gatherRanks, List.length_cons, Nat.add_sub_cancel, pieces, List.zipWith_cons_cons]
                    exact .cons k1 i1
                  · simp only [List.map_cons, gathered, List.length_cons, Nat.add_sub_cancel, ← i2, allOf_cons]
                    cases g (j.take s.length) with
                    | none => rfl
                    | some x => cases allOf os <;> rfl
        | false =>
          simp only [gatherPieces] at hs
          simp only [gatherRank, List.length_cons, Nat.add_sub_cancel] at hj
          obtain ⟨os, i1, i2, i3⟩ := ih ts gs dims b ss hb (by simpa using h) h1 h2 hl (j.drop 1) (by simp; omega) hs
          refine ⟨some (n.ofIdx (j.headD 0)) :: os, ?_, ?_, by simp [i3]⟩
          · simp only [maskSubs, bargs, List.drop_one, List.tail_cons, gatherRanks, List.length_cons, Nat.add_sub_cancel, pieces, List.take_succ_cons, List.take_zero, List.map_cons, List.map_nil,
              List.singleton_append, List.zipWith_cons_cons]
            refine .cons ?_ (by simpa using i1)
            have := sem_iot S (μ := μ) n d (j.take 1) (by intro e; have := congrArg List.length e; simp only [List.length_take, List.length_nil] at this; omega)
            convert this using 3
            cases j <;> simp
          · simp only [gathered, List.length_cons, Nat.add_sub_cancel, ← i2, allOf_cons]
            cases allOf os with
            | none => rfl
            | some ys => simp [n.toIdx_ofIdx]

theorem gathered_length {n : IndexLike V} {os : List (Option V)} {ys : List V} (h : allOf os = some ys) : ys.length = os.length := by
  induction os generalizing ys with
  | nil => simp [allOf] at h; simp [← h]
  | cons o os ih =>
    rw [allOf_cons] at h
    cases o with
    | none => simp at h
    | some x =>
      simp only [Option.bind_some, Option.map_eq_some_iff] at h
      obtain ⟨ys', h1, rfl⟩ := h
      simp [ih h1]

/-- An element of a view with array subscripts. -/
theorem refSem_gather (S : Sees V m) {as : List Arr} {vs : List (Value V)} {μ : Mem V} {i : Nat} {a : Arr} {v : Value V} (ha : as[i]? = some a) (hv : vs[i]? = some v) (hr : Rep μ a v) {ops : List ViewOp}
    {b : List Nat} (ht : opsShape true (v.shape.map some) ops = some (b.map some)) (w : View) (hw : runOps ops a.view = .ok w) (n : IndexLike V) (mk : List Bool) (ts : List (Iter m (Lv V)))
    (gs : List (List Int → Option V)) (ss : List (List Length)) (hss : HasShapes ts ss) (h2 : gs.length = ss.length) (hne : ts ≠ []) (s : List Length) (hs : gatherShape mk b ss = some s)
    (j : List Int) (hj : InRange s j) (e : Iter m (Lv V)) (he : w.gather n mk ts = .ok (some e))
    (hsem : List.Forall₂ (Sem S μ) (List.zipWith elem ts (gatherPieces mk (ss.map List.length) j)) (List.zipWith (fun g j => g j) gs (gatherPieces mk (ss.map List.length) j))) :
    RefSem S as vs μ (elem e j) ((gatherAt v ops n.toIdx mk (ss.map List.length) gs j).map fun p => (i, p)) := by
  letI := lvIndex n
  obtain ⟨w', hw', hsh, hpl⟩ := place_ok hr ht
  rw [hw] at hw'
  cases hw'
  obtain ⟨c1, c2⟩ := gatherShape_count hs
  have hlen : w.dims.map Dim.len = b.map Nat.cast := shaped_nat.mp hsh
  have hdl : w.dims.length = b.length := by simpa using congrArg List.length hlen
  have h2' := hasShapes_iff.mp hss
  have hrk : ts.map Iter.rank = (ss.map List.length).map Int.ofNat := by
    apply List.ext_getElem
    · simp [h2'.length_eq]
    · intro k k1 k2
      have := (List.forall₂_iff_get.mp h2').2 k (by simpa using k1) (by simpa using k2)
      simpa using this.fits.1
  have hwf : ∀ a ∈ ts, a.WF := by
    intro a ha
    obtain ⟨k, hk, rfl⟩ := List.getElem_of_mem ha
    exact ((List.forall₂_iff_get.mp h2').2 k hk (by rw [← h2'.length_eq]; exact hk)).wf
  obtain ⟨e', q1, q2, q3, q4, q5⟩ := gather_good n w b hlen mk ts (ss.map List.length) (by rw [c1, h2'.length_eq]) c2 hrk hwf hne
  rw [he] at q1
  simp only [Except.ok.injEq, Option.some.injEq] at q1
  subst q1
  obtain ⟨g1, g2, g3, g4⟩ := bargs_mask mk ts w.dims b _ hlen (by rw [c1, h2'.length_eq]) c2 hrk hwf
  obtain ⟨e', r1, r2, r3⟩ := C16_outer (gatherOp n w) _ (g4 hne) _ ((g3 _).mpr ⟨ss, hss, rfl⟩)
  rw [q5] at r1
  cases r1
  have hsl := length_flatten_gather hs
  rw [← (gatherShapes_iff mk b ss c1 c2 s).mp hs] at r3
  rw [r3 j hj.1, length_gatherShapes mk b ss c1 c2]
  obtain ⟨os, o1, o2, o3⟩ := gather_args S n mk ts gs w.dims b ss hdl c1 h2'.length_eq h2 c2 j (by rw [← hsl]; exact hj.1) hsem
  obtain ⟨m1, m2⟩ := sem_mapM S o1
  have hvs : viewShape v ops = b.map some := by simp [viewShape, ht]
  simp only [gatherAt, hvs, List.length_map, ← o2]
  cases hall : allOf os with
  | none =>
    simp only [Option.map_none]
    exact S.bad_ (m2 hall)
  | some ys =>
    obtain ⟨ls, l1, l2⟩ := m1 ys hall
    simp only [Option.map_some]
    have hyl : (ys.map n.toIdx).length = b.length := by simp [gathered_length (n := n) hall, o3]
    obtain ⟨t1, t2⟩ := elemAt_eq (m := m) w b hsh (fun p => pure (Lv.ref p)) (ys.map n.toIdx) hyl
    by_cases hin : InRange (b.map some) (ys.map n.toIdx)
    · rw [if_pos ((within_iff b _ hyl).mpr hin)]
      obtain ⟨_, k, y, f1, f2, f3, f4, f5⟩ := hpl _ hin
      refine ⟨a, v, k, y, ha, hv, f1, f2, f4, f5, S.bind_ l1 (S.bind_ (sem_gets S _ _ l2) ?_)⟩
      rw [t1 hin, f3]
      exact S.pure_ μ _
    · rw [if_neg (fun hc => hin ((within_iff b _ hyl).mp hc))]
      refine S.next_ l1 (S.next_ (sem_gets S _ _ l2) ?_)
      rw [t2 hin]
      exact S.check_ μ

theorem sem_of_ref (S : Sees V m) {as : List Arr} {vs : List (Value V)} {μ : Mem V} {x : m (Lv V)} {o : Option (Nat × List Int)} (h : RefSem S as vs μ x o) :
    Sem S μ x (o.bind fun q => (vs[q.1]?).bind fun v => v.get q.2) := by
  cases o with
  | none => exact h
  | some q =>
    obtain ⟨i, p⟩ := q
    obtain ⟨a, v, k, y, g1, g2, g3, g4, g5, g6, g7⟩ := h
    simp only [Option.bind_some, g2, g6]
    exact ⟨_, g7, act_read g5⟩

/-! ### Expressions without reductions -/

mutual
/-- There are no reductions. -/
def Plain : FExp V → Prop
  | .gather _ _ _ _ t => AllPlain t
  | .map _ _ t => AllPlain t
  | .pick _ t => AllPlain t
  | .fold _ _ _ => False
  | _ => True
def AllPlain : List (FExp V) → Prop
  | [] => True
  | e :: t => Plain e ∧ AllPlain t
end

theorem index_shape {m : Type → Type} {α : Type} [Monad m] (w : Nat) (g : Int → m α) : HasShape (reframe [w] (.cell [⟨UNB, 1⟩] 0 g)) (List.replicate (w + 1) none) := by
  have hc : HasShape (.cell [⟨UNB, 1⟩] 0 g : Iter m α) [none] := .cons rfl .nil
  obtain ⟨s, h1, h2⟩ := hasShape_reframe [w] _ [none] hc rfl (by simp)
  rw [reframed_one w s h2] at h1
  exact h1

theorem index_elem {m : Type → Type} {α : Type} [Monad m] [LawfulMonad m] (w : Nat) (g : Int → m α) (j : List Int) (h : w < j.length) :
    elem (reframe [w] (.cell [⟨UNB, 1⟩] 0 g)) j = g (j.getD w 0) := by
  have hc : HasShape (.cell [⟨UNB, 1⟩] 0 g : Iter m α) [none] := .cons rfl .nil
  rw [elem_reframe [w] _ [none] hc rfl j (by simpa using h)]
  simp [elem, dot]

theorem node_rank {m : Type → Type} {α : Type} (op : List (m α) → m α) (ts : List (Iter m α)) (hne : ts ≠ []) (rs : List Nat) (hr : ts.map Iter.rank = rs.map Int.ofNat) :
    (Iter.node op ts).rank = largest rs := by
  have hrn : rs ≠ [] := by
    rintro rfl
    simp at hr
    exact hne hr
  simp only [Iter.rank, rankList_map, hr]
  rw [coranks_unb (by simpa using hrn) (by simp)]
  suffices H : ∀ (rs : List Nat) (a : Nat), (rs.map Int.ofNat).foldl max (a : Int) = ((max a (largest rs) : Nat) : Int) by
    have := H rs 0
    simpa using this
  intro rs
  induction rs with
  | nil => intro a; simp [largest]
  | cons r rs ih =>
    intro a
    simp only [List.map_cons, List.foldl_cons, largest]
    have := ih (max a r)
    rw [show max (a : Int) (Int.ofNat r) = ((max a r : Nat) : Int) by simp, this]
    congr 1
    omega

mutual
theorem fexp_good {μ0 μ : Mem V} {as : List Arr} {vs : List (Value V)} (h : Same μ0 as vs μ) : (e : FExp V) → FExp.Good vs e → Plain e →
    ∃ t : Iter m (Lv V), Ra.FExp.iter as e = .ok t ∧ t.WF ∧ t.rank = FExp.rank vs e ∧ ∀ s, HasShape t s ↔ FExp.Shape vs e s
  | .const x, _, _ => ⟨.scalar (pure (.val x)), by simp only [Ra.FExp.iter], by simp [Iter.WF], by simp [Iter.rank, FExp.rank], by simp [HasShape, FExp.Shape]⟩
  | .index w f, _, _ => by
    have hs := index_shape (m := m) w fun i => pure (Lv.val (f i))
    refine ⟨_, by simp only [Ra.FExp.iter], hs.wf, ?_, fun s => ⟨fun h => hasShape_unique h hs, fun h => ?_⟩⟩
    · rw [hs.fits.1]; simp [FExp.rank]
    · simp only [FExp.Shape] at h
      rw [h]
      exact hs
  | .iota n o s f, _, _ => by
    have hs : HasShape (.cell [⟨n, s⟩] o fun i => pure (.val (f i)) : Iter m (Lv V)) [some n] := List.Forall₂.cons (by simp [DimLen]) .nil
    refine ⟨_, by simp only [Ra.FExp.iter], hs.wf, ?_, fun s => ⟨fun h => hasShape_unique h hs, fun h => ?_⟩⟩
    · rw [hs.fits.1]; simp [FExp.rank]
    · simp only [FExp.Shape] at h
      rw [h]
      exact hs
  | .gather n i ops mk t, hg, hp => by
    obtain ⟨hne, hg, hc, v, b, hv, hs, hl⟩ := hg
    obtain ⟨ts, h1, h2, h3, h4, h5⟩ := fexps_good h t hg hp
    have hne' : ts ≠ [] := by
      rintro rfl
      simp at h4
      exact hne (List.eq_nil_of_length_eq_zero h4.symm)
    obtain ⟨a, ha, hr⟩ := h.geta hv
    obtain ⟨w, w1, w2, _⟩ := place_ok hr hs
    obtain ⟨e, e1, e2, e3, e4, _⟩ := gather_good n w b (shaped_nat.mp w2) mk ts _ (by rw [hc, h4]) hl h3 h2 hne'
    refine ⟨e, ?_, e2, ?_, fun s => ?_⟩
    · simp [Ra.FExp.iter, viewOf, ha, w1, h1, e1, bind, Except.bind, pure, Except.pure]
    · rw [e3]; simp [FExp.rank, hv, viewShape, hs]
    · rw [e4, FExp.Shape]
      constructor
      · rintro ⟨ss, a1, a2⟩
        exact ⟨hne, v, b, ss, hv, hs, (h5 ss).mp a1, a2⟩
      · rintro ⟨_, v', b', ss, a1, a2, a3, a4⟩
        rw [hv] at a1
        cases a1
        rw [hs] at a2
        have : b = b' := (List.map_injective_iff.mpr fun a b h => by simpa using h) (Option.some.inj a2)
        subst this
        exact ⟨ss, (h5 ss).mpr a3, a4⟩
  | .view i ops, hg, _ => by
    obtain ⟨v, hv, s, hs⟩ := hg
    obtain ⟨a, ha, hr⟩ := h.geta hv
    obtain ⟨w, h1, h2, _⟩ := place_ok hr hs
    have hsh : HasShape (.cell w.dims w.cp fun p => pure (.ref p) : Iter m (Lv V)) s := h2
    refine ⟨.cell w.dims w.cp fun p => pure (.ref p), ?_, hsh.wf, ?_, fun s' => ⟨fun h => ?_, fun h => ?_⟩⟩
    · simp [Ra.FExp.iter, viewOf, ha, h1, bind, Except.bind, pure, Except.pure]
    · rw [hsh.fits.1]; simp [FExp.rank, hv, viewShape, hs]
    · rw [hasShape_unique h hsh]
      exact ⟨v, hv, hs⟩
    · obtain ⟨v', hv', hs'⟩ := h
      rw [hv] at hv'
      cases hv'
      rw [hs] at hs'
      cases hs'
      exact hsh
  | .map f cranks t, hg, hp => by
    obtain ⟨hne, hg, hfit⟩ := hg
    obtain ⟨ts, h1, h2, h3, h4, h5⟩ := fexps_good h t hg hp
    have hne' : ts ≠ [] := by
      rintro rfl
      simp at h4
      exact hne (List.eq_nil_of_length_eq_zero h4.symm)
    obtain ⟨g1, g2, g3, g4⟩ := mapVerb_good (valOpIn f) cranks ts _ h3 h2 hne' hfit
    refine ⟨_, by simp only [Ra.FExp.iter, h1, g1, bind, Except.bind]; rfl, g2, by rw [g3, FExp.rank], fun s => ?_⟩
    rw [g4, FExp.Shape]
    simp only [h5]
  | .pick sel t, hg, hp => by
    obtain ⟨hne, hg⟩ := hg
    obtain ⟨ts, h1, h2, h3, h4, h5⟩ := fexps_good h t hg hp
    have hne' : ts ≠ [] := by
      rintro rfl
      simp at h4
      exact hne (List.eq_nil_of_length_eq_zero h4.symm)
    refine ⟨.node (pickIn sel) ts, by simp only [Ra.FExp.iter, h1, bind, Except.bind]; rfl, ⟨hne', (wflist_mem _).mpr h2⟩, ?_, fun s => ?_⟩
    · rw [node_rank _ ts hne' _ h3, FExp.rank]
    · rw [FExp.Shape]
      simp only [← h5]
      exact Iff.rfl
  | .fold f x0 e, _, hp => by simp [Plain] at hp
theorem fexps_good {μ0 μ : Mem V} {as : List Arr} {vs : List (Value V)} (h : Same μ0 as vs μ) : (t : List (FExp V)) → FExp.Goods vs t → AllPlain t →
    ∃ ts : List (Iter m (Lv V)), Ra.FExp.iters as t = .ok ts ∧ (∀ a ∈ ts, a.WF) ∧ ts.map Iter.rank = (FExp.ranks vs t).map Int.ofNat ∧ ts.length = t.length ∧
      ∀ ss, HasShapes ts ss ↔ FExp.Shapes vs t ss
  | [], _, _ => ⟨[], by simp only [Ra.FExp.iters], by simp, by simp [FExp.ranks], rfl, by simp [HasShapes, FExp.Shapes]⟩
  | e :: t, hg, hp => by
    obtain ⟨a, a1, a2, a3, a4⟩ := fexp_good h e hg.1 hp.1
    obtain ⟨ts, t1, t2, t3, t4, t5⟩ := fexps_good h t hg.2 hp.2
    refine ⟨a :: ts, by simp only [Ra.FExp.iters, a1, t1, bind, Except.bind]; rfl, by simpa using ⟨a2, t2⟩, by simp [a3, t3, FExp.ranks], by simp [t4], fun ss => ?_⟩
    simp only [HasShapes, FExp.Shapes, a4, t5]
end

theorem ranks_length (vs : List (Value V)) (t : List (FExp V)) : (FExp.ranks vs t).length = t.length := by
  induction t with
  | nil => simp [FExp.ranks]
  | cons e t ih => simp [FExp.ranks, ih]

mutual
theorem shape_good {vs : List (Value V)} : (e : FExp V) → (s : List Length) → FExp.Shape vs e s → FExp.Good vs e ∧ Plain e ∧ FExp.rank vs e = s.length
  | .const x, s, h => by simp only [FExp.Shape] at h; subst h; simp [FExp.Good, Plain, FExp.rank]
  | .index w f, s, h => by simp only [FExp.Shape] at h; subst h; simp [FExp.Good, Plain, FExp.rank]
  | .iota n o s0 f, s, h => by simp only [FExp.Shape] at h; subst h; simp [FExp.Good, Plain, FExp.rank]
  | .gather n i ops mk t, s, h => by
    obtain ⟨hne, v, b, ss, h1, h2, h3, h4⟩ := h
    obtain ⟨g1, g2, g3⟩ := shapes_good t ss h3
    obtain ⟨c1, c2⟩ := gatherShape_count h4
    have hl : t.length = ss.length := by
      have := congrArg List.length g3
      rw [ranks_length] at this
      simpa using this
    exact ⟨⟨hne, g1, by rw [c1, hl], v, b, h1, h2, c2⟩, g2, by simp [FExp.rank, h1, viewShape, h2, g3, length_flatten_gather h4]⟩
  | .view i ops, s, h => by
    obtain ⟨v, h1, h2⟩ := h
    exact ⟨⟨v, h1, s, h2⟩, by simp [Plain], by simp [FExp.rank, h1, viewShape, h2]⟩
  | .map f cranks t, s, h => by
    obtain ⟨ss, h1, h2⟩ := h
    obtain ⟨g1, g2, g3⟩ := shapes_good t ss h1
    obtain ⟨l1, l2⟩ := verbShape_length h2
    refine ⟨⟨?_, g1, by rw [g3]; exact h2.fit⟩, g2, by rw [FExp.rank, g3, l1]⟩
    rintro rfl
    simp only [FExp.Shapes] at h1
    exact l2 h1
  | .pick sel t, s, h => by
    obtain ⟨ss, h1, h2⟩ := h
    obtain ⟨g1, g2, g3⟩ := shapes_good t ss h1
    refine ⟨⟨?_, g1⟩, g2, by rw [FExp.rank, g3, merge_length h2]⟩
    rintro rfl
    simp only [FExp.Shapes] at h1
    subst h1
    obtain ⟨_, ⟨x, hx, _⟩, _⟩ := h2
    simp at hx
  | .fold f x0 e, s, h => by simp [FExp.Shape] at h
theorem shapes_good {vs : List (Value V)} : (t : List (FExp V)) → (ss : List (List Length)) → FExp.Shapes vs t ss → FExp.Goods vs t ∧ AllPlain t ∧ FExp.ranks vs t = ss.map List.length
  | [], ss, h => by simp only [FExp.Shapes] at h; subst h; simp [FExp.Goods, AllPlain, FExp.ranks]
  | e :: t, ss, h => by
    obtain ⟨s, ss', rfl, h1, h2⟩ := h
    obtain ⟨a1, a2, a3⟩ := shape_good e s h1
    obtain ⟨b1, b2, b3⟩ := shapes_good t ss' h2
    exact ⟨⟨a1, b1⟩, ⟨a2, b2⟩, by simp [FExp.ranks, a3, b3]⟩
end

/-! ### Values -/

theorem inRange_fm {cs : List (List Nat)} {ss : List (List Length)} {s : List Length} (F : FmSpec (fm cs (ss.map List.length)) ss s) {j : List Int} (hj : InRange s j) :
    List.Forall₂ InRange ss ((fm cs (ss.map List.length)).map fun d => d.map fun k => j.getD k 0) := by
  rw [List.forall₂_iff_get]
  refine ⟨by simp [F.len], fun i h1 h2 => ?_⟩
  simp only [List.length_map] at h2
  simp only [List.get_eq_getElem, List.getElem_map]
  have hl := F.lens i h2 h1
  refine ⟨by simp [hl], fun l n hn => ?_⟩
  have hl' : l < ss[i].length := (List.getElem?_eq_some_iff.mp hn).1
  have hs := (F.fin ((fm cs (ss.map List.length))[i][l]'(by omega)) n).mpr ⟨i, l, _, _, List.getElem?_eq_getElem h2, List.getElem?_eq_getElem h1, List.getElem?_eq_getElem (by omega), hn⟩
  have := hj.2 _ n hs
  simpa [List.getD_eq_getElem?_getD, hl, hl'] using this

theorem inRange_merges {ss : List (List Length)} {s : List Length} (h : Merge ss s) {j : List Int} (hj : InRange s j) : List.Forall₂ InRange ss (List.replicate ss.length j) := by
  rw [List.forall₂_iff_get]
  refine ⟨by simp, fun i h1 h2 => ?_⟩
  simp only [List.get_eq_getElem, List.getElem_replicate]
  have hm : ss[i] ∈ ss := List.getElem_mem h1
  refine ⟨Nat.le_trans (h.1 _ hm) hj.1, fun k n hk => hj.2 k n ((h.2.2 k n).mpr ⟨_, hm, hk⟩)⟩

theorem ats_length (vs : List (Value V)) (t : List (FExp V)) : (FExp.ats vs t).length = t.length ∧ (FExp.ranks vs t).length = t.length ∧ (FExp.referss vs t).length = t.length := by
  induction t with
  | nil => simp [FExp.ats, FExp.ranks, FExp.referss]
  | cons e t ih => simp [FExp.ats, FExp.ranks, FExp.referss, ih]

theorem zipWith_same {α β γ : Type} (f : α → β → γ) (l : List α) (b : β) (n : Nat) (h : l.length = n) : List.zipWith f l (List.replicate n b) = l.map fun a => f a b := by
  subst h
  induction l with
  | nil => rfl
  | cons a l ih => simp [List.replicate_succ, ih]

/-- The element of a view. -/
theorem view_elem {m : Type → Type} [Monad m] (w : View) (j : List Int) : elem (.cell w.dims w.cp fun p => pure (.ref p) : Iter m (Lv V)) j = pure (.ref (address w j)) := rfl

theorem sem_pick (S : Sees V m) {μ : Mem V} (sel : V → Nat) {x : m (Lv V)} {xs : List (m (Lv V))} {o : Option V} {os : List (Option V)} (h : Sem S μ x o) (hs : List.Forall₂ (Sem S μ) xs os) :
    Sem S μ (pickIn sel (x :: xs)) (o.bind fun y => (os[sel y]?).bind id) := by
  cases o with
  | none => exact S.bad_ h
  | some y =>
    obtain ⟨l, e1, e2⟩ := h
    have hl := hs.length_eq
    have hps := pickStar_get S (μ := μ) 0 (sel y) xs
    rw [Nat.zero_add] at hps
    simp only [pickIn, Option.bind_some]
    by_cases hlt : sel y < os.length
    · simp only [List.getElem?_eq_getElem hlt, Option.bind_some, id]
      have hlt' : sel y < xs.length := by omega
      rw [List.getElem?_eq_getElem hlt'] at hps
      have hk := (List.forall₂_iff_get.mp hs).2 (sel y) hlt' hlt
      simp only [List.get_eq_getElem] at hk
      cases ho : os[sel y] with
      | none =>
        rw [ho] at hk
        refine S.next_ e1 (S.next_ (S.lift_ e2) ?_)
        rw [hps]
        exact hk
      | some r =>
        rw [ho] at hk
        obtain ⟨l', g1, g2⟩ := hk
        refine ⟨l', S.bind_ e1 (S.bind_ (S.lift_ e2) ?_), g2⟩
        rw [hps]
        exact g1
    · simp only [List.getElem?_eq_none (show os.length ≤ sel y by omega), Option.bind_none]
      rw [List.getElem?_eq_none (show xs.length ≤ sel y by omega)] at hps
      refine S.next_ e1 (S.next_ (S.lift_ e2) ?_)
      rw [hps]
      exact S.check_ μ

theorem refSem_pick (S : Sees V m) {as : List Arr} {vs : List (Value V)} {μ : Mem V} (sel : V → Nat) {x : m (Lv V)} {xs : List (m (Lv V))} {o : Option V} {os : List (Option (Nat × List Int))}
    (h : Sem S μ x o) (hs : List.Forall₂ (RefSem S as vs μ) xs os) :
    RefSem S as vs μ (pickIn sel (x :: xs)) (o.bind fun y => (os[sel y]?).bind id) := by
  cases o with
  | none => exact S.bad_ h
  | some y =>
    obtain ⟨l, e1, e2⟩ := h
    have hl := hs.length_eq
    have hps := pickStar_get S (μ := μ) 0 (sel y) xs
    rw [Nat.zero_add] at hps
    simp only [pickIn, Option.bind_some]
    by_cases hlt : sel y < os.length
    · simp only [List.getElem?_eq_getElem hlt, Option.bind_some, id]
      have hlt' : sel y < xs.length := by omega
      rw [List.getElem?_eq_getElem hlt'] at hps
      have hk := (List.forall₂_iff_get.mp hs).2 (sel y) hlt' hlt
      simp only [List.get_eq_getElem] at hk
      cases ho : os[sel y] with
      | none =>
        rw [ho] at hk
        refine S.next_ e1 (S.next_ (S.lift_ e2) ?_)
        rw [hps]
        exact hk
      | some r =>
        rw [ho] at hk
        obtain ⟨a, v, k, z, g1, g2, g3, g4, g5, g6, g7⟩ := hk
        refine ⟨a, v, k, z, g1, g2, g3, g4, g5, g6, S.bind_ e1 (S.bind_ (S.lift_ e2) ?_)⟩
        rw [hps]
        exact g7
    · simp only [List.getElem?_eq_none (show os.length ≤ sel y by omega), Option.bind_none]
      rw [List.getElem?_eq_none (show xs.length ≤ sel y by omega)] at hps
      refine S.next_ e1 (S.next_ (S.lift_ e2) ?_)
      rw [hps]
      exact S.check_ μ

/-- The element that array subscripts refer to. -/
theorem gather_refers (S : Sees V m) {μ0 μ : Mem V} {as : List Arr} {vs : List (Value V)} (h : Same μ0 as vs μ) (n : IndexLike V) (i : Nat) (ops : List ViewOp) (mk : List Bool) (t : List (FExp V))
    (s : List Length) (hs : FExp.Shape vs (.gather n i ops mk t) s) (u : Iter m (Lv V)) (hu : Ra.FExp.iter as (.gather n i ops mk t) = .ok u) (j : List Int) (hj : InRange s j)
    (ts : List (Iter m (Lv V))) (ht : Ra.FExp.iters as t = .ok ts) (ss : List (List Length)) (h3 : FExp.Shapes vs t ss) (hss : HasShapes ts ss) (v : Value V) (b : List Nat) (h1 : vs[i]? = some v)
    (h2 : opsShape true (v.shape.map some) ops = some (b.map some)) (h4 : gatherShape mk b ss = some s)
    (key : List.Forall₂ (Sem S μ) (List.zipWith elem ts (gatherPieces mk (ss.map List.length) j)) (List.zipWith (fun g j => g j) (FExp.ats vs t) (gatherPieces mk (ss.map List.length) j))) :
    RefSem S as vs μ (elem u j) ((gatherAt v ops n.toIdx mk (ss.map List.length) (FExp.ats vs t) j).map fun p => (i, p)) := by
  obtain ⟨a, ha, hr⟩ := h.geta h1
  obtain ⟨w, w1, w2, _⟩ := place_ok hr h2
  have hl1 := (hasShapes_iff.mp hss).length_eq
  have hl2 := congrArg List.length (shapes_good t ss h3).2.2
  rw [ranks_length, List.length_map] at hl2
  have hne : ts ≠ [] := by
    rintro rfl
    exact hs.1 (List.eq_nil_of_length_eq_zero (by simp at hl1; omega))
  simp only [Ra.FExp.iter, viewOf, ha, w1, ht, bind, Except.bind, pure, Except.pure] at hu
  cases hg : w.gather n mk ts with
  | error f => rw [hg] at hu; simp at hu
  | ok o =>
    rw [hg] at hu
    cases o with
    | none => simp at hu
    | some e =>
      simp only [Except.ok.injEq] at hu
      subst hu
      exact refSem_gather S ha h1 hr h2 w w1 n mk ts (FExp.ats vs t) ss hss (by rw [(ats_length vs t).1, hl2]) hne s h4 j hj _ hg key

mutual
theorem fexp_sem (S : Sees V m) {μ0 μ : Mem V} {as : List Arr} {vs : List (Value V)} (h : Same μ0 as vs μ) : (e : FExp V) → (s : List Length) → FExp.Shape vs e s →
    (t : Iter m (Lv V)) → Ra.FExp.iter as e = .ok t → ∀ j, InRange s j → Sem S μ (elem t j) (FExp.at vs e j)
  | .const x, s, hs, t, ht, j, hj => by
    simp only [Ra.FExp.iter, Except.ok.injEq] at ht
    subst ht
    exact ⟨_, S.pure_ μ _, rfl⟩
  | .index w f, s, hs, t, ht, j, hj => by
    simp only [Ra.FExp.iter, Except.ok.injEq] at ht
    subst ht
    simp only [FExp.Shape] at hs
    subst hs
    have hw : w < j.length := by have := hj.1; simp at this; omega
    rw [index_elem w _ j hw]
    exact ⟨_, S.pure_ μ _, rfl⟩
  | .iota n o s0 f, s, hs, t, ht, j, hj => by
    simp only [Ra.FExp.iter, Except.ok.injEq] at ht
    subst ht
    simp only [FExp.Shape] at hs
    subst hs
    cases j with
    | nil => have := hj.1; simp at this
    | cons x j =>
      refine ⟨_, S.pure_ μ _, ?_⟩
      simp [Lv.get, dot, Int.mul_comm]
      rfl
  | .gather n i ops mk t, s, hs, u, hu, j, hj => by
    have hs' := hs
    obtain ⟨hne, v, b, ss, h1, h2, h3, h4⟩ := hs
    obtain ⟨g1, g2, g3⟩ := shapes_good t ss h3
    obtain ⟨ts, t1, t2, t3, t4, t5⟩ := fexps_good (m := m) h t g1 g2
    have key := fexps_sem S h t ss h3 ts t1 _ (inRange_gather h4 hj)
    have := sem_of_ref S (gather_refers S h n i ops mk t s hs' u hu j hj ts t1 ss h3 ((t5 ss).mpr h3) v b h1 h2 h4 key)
    convert this using 1
    simp only [FExp.at, h1, g3]
    cases gatherAt v ops n.toIdx mk (ss.map List.length) (FExp.ats vs t) j with
    | none => rfl
    | some p => simp [h1]
  | .view i ops, s, hs, t, ht, j, hj => by
    obtain ⟨v, hv, hs⟩ := hs
    obtain ⟨a, ha, hr⟩ := h.geta hv
    obtain ⟨w, h1, h2, h3⟩ := place_ok hr hs
    simp only [Ra.FExp.iter, viewOf, ha, h1, bind, Except.bind, pure, Except.pure, Except.ok.injEq] at ht
    subst ht
    obtain ⟨_, k, y, _, _, f3, f4, f5⟩ := h3 j hj
    simp only [FExp.at, hv, f5]
    exact ⟨.ref (address w j), S.pure_ μ _, act_read (by rw [f3]; exact f4)⟩
  | .map f cranks t, s, hs, u, hu, j, hj => by
    obtain ⟨ss, h1, h2⟩ := hs
    obtain ⟨g1, g2, g3⟩ := shapes_good t ss h1
    obtain ⟨ts, t1, t2, t3, t4, t5⟩ := fexps_good (m := m) h t g1 g2
    have hss := (t5 ss).mpr h1
    obtain ⟨e, e1, e2, e3⟩ := C17_conjunction (valOpIn f) cranks ts ss hss s h2
    simp only [Ra.FExp.iter, t1, e1, bind, Except.bind, pure, Except.pure, Except.ok.injEq] at hu
    subst hu
    have F := fmSpec cranks ss s h2
    have hlt : ∀ d ∈ fm cranks (ss.map List.length), ∀ k ∈ d, k < j.length := fun d hd k hk => Nat.lt_of_lt_of_le (F.lt d hd k hk) hj.1
    have hls := (hasShapes_iff.mp hss).length_eq
    obtain ⟨l1, l2, _⟩ := ats_length vs t
    have hA : (List.zipWith (fun (a : Iter m (Lv V)) (x : List Length) => (x.length, elem a)) ts ss).map Prod.fst = ss.map List.length := by
      apply List.ext_getElem
      · simp [hls]
      · intro i i1 i2; simp
    have hB : ((FExp.ranks vs t).zip (FExp.ats vs t)).map Prod.fst = ss.map List.length := by
      rw [← g3, List.map_fst_zip (by omega)]
    rw [e3 j hj.1, verb_eq _ cranks _ j (by rw [hA]; exact h2.fit) (by rw [hA]; exact hlt), FExp.at, verb_eq _ cranks _ j (by rw [hB]; exact h2.fit) (by rw [hB]; exact hlt), hA, hB]
    have key := fexps_sem S h t ss h1 ts t1 _ (inRange_fm F hj)
    apply sem_map S f
    convert key using 1
    · apply List.ext_getElem
      · simp [hls]
      · intro i i1 i2; simp
    · apply List.ext_getElem
      · simp [l1, l2]
      · intro i i1 i2; simp
  | .pick sel t, s, hs, u, hu, j, hj => by
    obtain ⟨ss, h1, h2⟩ := hs
    obtain ⟨g1, g2, g3⟩ := shapes_good t ss h1
    obtain ⟨ts, t1, t2, t3, t4, t5⟩ := fexps_good (m := m) h t g1 g2
    have hss := (t5 ss).mpr h1
    have hls := (hasShapes_iff.mp hss).length_eq
    simp only [Ra.FExp.iter, t1, bind, Except.bind, pure, Except.pure, Except.ok.injEq] at hu
    subst hu
    have key := fexps_sem S h t ss h1 ts t1 _ (inRange_merges h2 hj)
    obtain ⟨l1, l2, _⟩ := ats_length vs t
    rw [zipWith_same _ _ _ _ hls, zipWith_same _ _ _ _ (by omega)] at key
    rw [← elems_eq_map] at key
    simp only [elem, FExp.at]
    cases ha : FExp.ats vs t with
    | nil =>
      exfalso
      rw [ha] at l1
      obtain ⟨_, ⟨x, hx, _⟩, _⟩ := h2
      have : ss = [] := List.eq_nil_of_length_eq_zero (by simp at l1; omega)
      rw [this] at hx
      simp at hx
    | cons p ps =>
      rw [ha] at key
      simp only [List.map_cons] at key
      generalize elems ts j = xs at key
      cases key with
      | cons k1 k2 =>
        have := sem_pick S sel k1 k2
        convert this using 1
        simp only
        cases p j with
        | none => rfl
        | some x =>
          simp only [List.getElem?_map, Option.bind_some]
          cases ps[sel x]? <;> rfl
  | .fold f x0 e, s, hs, t, ht, j, hj => by simp [FExp.Shape] at hs
theorem fexps_sem (S : Sees V m) {μ0 μ : Mem V} {as : List Arr} {vs : List (Value V)} (h : Same μ0 as vs μ) : (t : List (FExp V)) → (ss : List (List Length)) → FExp.Shapes vs t ss →
    (ts : List (Iter m (Lv V))) → Ra.FExp.iters as t = .ok ts → ∀ js, List.Forall₂ InRange ss js →
      List.Forall₂ (Sem S μ) (List.zipWith elem ts js) (List.zipWith (fun g j => g j) (FExp.ats vs t) js)
  | [], ss, hs, ts, ht, js, hj => by
    simp only [Ra.FExp.iters, Except.ok.injEq] at ht
    subst ht
    simp [FExp.ats]
  | e :: t, ss, hs, ts, ht, js, hj => by
    obtain ⟨s, ss', rfl, h1, h2⟩ := hs
    obtain ⟨a, a1, _⟩ := fexp_good (m := m) h e (shape_good e s h1).1 (shape_good e s h1).2.1
    obtain ⟨ts', b1, _⟩ := fexps_good (m := m) h t (shapes_good t ss' h2).1 (shapes_good t ss' h2).2.1
    simp only [Ra.FExp.iters, a1, b1, bind, Except.bind, pure, Except.pure, Except.ok.injEq] at ht
    subst ht
    cases hj with
    | cons c1 c2 =>
      simp only [List.zipWith_cons_cons, FExp.ats]
      exact .cons (fexp_sem S h e s h1 a a1 _ c1) (fexps_sem S h t ss' h2 ts' b1 _ c2)
end

mutual
theorem fexp_refers (S : Sees V m) {μ0 μ : Mem V} {as : List Arr} {vs : List (Value V)} (h : Same μ0 as vs μ) : (e : FExp V) → FExp.Places e → (s : List Length) → FExp.Shape vs e s →
    (t : Iter m (Lv V)) → Ra.FExp.iter as e = .ok t → ∀ j, InRange s j → RefSem S as vs μ (elem t j) (FExp.refers vs e j)
  | .const x, hp, s, hs, t, ht, j, hj => by simp [FExp.Places] at hp
  | .index w f, hp, s, hs, t, ht, j, hj => by simp [FExp.Places] at hp
  | .map f c t, hp, s, hs, u, ht, j, hj => by simp [FExp.Places] at hp
  | .fold f x0 e, hp, s, hs, t, ht, j, hj => by simp [FExp.Places] at hp
  | .iota n o s0 f, hp, s, hs, t, ht, j, hj => by simp [FExp.Places] at hp
  | .gather n i ops mk t, hp, s, hs, u, hu, j, hj => by
    have hs' := hs
    obtain ⟨hne, v, b, ss, h1, h2, h3, h4⟩ := hs
    obtain ⟨g1, g2, g3⟩ := shapes_good t ss h3
    obtain ⟨ts, t1, t2, t3, t4, t5⟩ := fexps_good (m := m) h t g1 g2
    have key := fexps_sem S h t ss h3 ts t1 _ (inRange_gather h4 hj)
    have := gather_refers S h n i ops mk t s hs' u hu j hj ts t1 ss h3 ((t5 ss).mpr h3) v b h1 h2 h4 key
    convert this using 1
    simp only [FExp.refers, h1, g3]
    cases gatherAt v ops n.toIdx mk (ss.map List.length) (FExp.ats vs t) j <;> rfl
  | .view i ops, hp, s, hs, t, ht, j, hj => by
    obtain ⟨v, hv, hs⟩ := hs
    obtain ⟨a, ha, hr⟩ := h.geta hv
    obtain ⟨w, h1, h2, h3⟩ := place_ok hr hs
    simp only [Ra.FExp.iter, viewOf, ha, h1, bind, Except.bind, pure, Except.pure, Except.ok.injEq] at ht
    subst ht
    obtain ⟨_, k, y, f1, f2, f3, f4, f5⟩ := h3 j hj
    simp only [FExp.refers, hv]
    refine ⟨a, v, k, y, ha, hv, f1, f2, f4, f5, ?_⟩
    rw [view_elem, f3]
    exact S.pure_ μ _
  | .pick sel [], hp, s, hs, u, hu, j, hj => by simp [FExp.Places] at hp
  | .pick sel (p :: ps), hp, s, hs, u, hu, j, hj => by
    obtain ⟨ss, h1, h2⟩ := hs
    obtain ⟨s0, ss', rfl, h1, h1'⟩ := h1
    obtain ⟨a, a1, _⟩ := fexp_good (m := m) h p (shape_good p s0 h1).1 (shape_good p s0 h1).2.1
    obtain ⟨ts, b1, _, _, _, b5⟩ := fexps_good (m := m) h ps (shapes_good ps ss' h1').1 (shapes_good ps ss' h1').2.1
    simp only [Ra.FExp.iter, Ra.FExp.iters, a1, b1, bind, Except.bind, pure, Except.pure, Except.ok.injEq] at hu
    subst hu
    have hls := (hasShapes_iff.mp ((b5 ss').mpr h1')).length_eq
    have hin := inRange_merges h2 hj
    simp only [List.length_cons, List.replicate_succ] at hin
    cases hin with
    | cons c1 c2 =>
      have k1 := fexp_sem S h p s0 h1 a a1 j c1
      have k2 := fexps_refers S h ps (by simpa [FExp.Places] using hp) ss' h1' ts b1 _ c2
      obtain ⟨_, _, l3⟩ := ats_length vs ps
      have l4 : ps.length = ss'.length := by
        obtain ⟨l1, _, _⟩ := ats_length vs ps
        have := (shapes_good ps ss' h1').2.2
        have := congrArg List.length this
        rw [(ats_length vs ps).2.1] at this
        simpa using this
      rw [zipWith_same _ _ _ _ hls, zipWith_same _ _ _ _ (by omega), ← elems_eq_map] at k2
      have := refSem_pick S sel k1 k2
      simp only [elem, elems, FExp.refers]
      convert this using 1
      cases FExp.at vs p j with
      | none => rfl
      | some x =>
        simp only [List.getElem?_map, Option.bind_some]
        cases (FExp.referss vs ps)[sel x]? <;> rfl
theorem fexps_refers (S : Sees V m) {μ0 μ : Mem V} {as : List Arr} {vs : List (Value V)} (h : Same μ0 as vs μ) : (t : List (FExp V)) → FExp.AllPlaces t → (ss : List (List Length)) →
    FExp.Shapes vs t ss → (ts : List (Iter m (Lv V))) → Ra.FExp.iters as t = .ok ts → ∀ js, List.Forall₂ InRange ss js →
      List.Forall₂ (RefSem S as vs μ) (List.zipWith elem ts js) (List.zipWith (fun g j => g j) (FExp.referss vs t) js)
  | [], hp, ss, hs, ts, ht, js, hj => by
    simp only [Ra.FExp.iters, Except.ok.injEq] at ht
    subst ht
    simp [FExp.referss]
  | e :: t, hp, ss, hs, ts, ht, js, hj => by
    obtain ⟨s, ss', rfl, h1, h2⟩ := hs
    obtain ⟨a, a1, _⟩ := fexp_good (m := m) h e (shape_good e s h1).1 (shape_good e s h1).2.1
    obtain ⟨ts', b1, _⟩ := fexps_good (m := m) h t (shapes_good t ss' h2).1 (shapes_good t ss' h2).2.1
    simp only [Ra.FExp.iters, a1, b1, bind, Except.bind, pure, Except.pure, Except.ok.injEq] at ht
    subst ht
    cases hj with
    | cons c1 c2 =>
      simp only [List.zipWith_cons_cons, FExp.referss]
      exact .cons (fexp_refers S h e hp.1 s h1 a a1 _ c1) (fexps_refers S h t hp.2 ss' h2 ts' b1 _ c2)
end

end
end Ra.Props
