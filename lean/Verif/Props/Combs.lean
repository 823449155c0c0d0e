import Verif.Props.Mp
/-!
# Combinations: C45
-/
set_option linter.unusedSectionVars false

namespace Ra.Spec

/-- `L` has each set of `O` numbers below `D` exactly once, in some arrangement. -/
def IsBasis (D O : Nat) (L : List (List Nat)) : Prop :=
  (∀ c ∈ L, c.Nodup ∧ c.length = O ∧ ∀ x ∈ c, x < D) ∧
  ∀ s : Finset Nat, (∀ x ∈ s, x < D) → s.card = O → ∃! k : Nat, ∃ c, L[k]? = some c ∧ c.toFinset = s

end Ra.Spec

namespace Ra.Props
open Spec

variable {α : Type} [DecidableEq α]

theorem lex_irrefl {r : α → α → Prop} (hr : ∀ a, ¬ r a a) : ∀ l : List α, ¬ List.Lex r l l := by
  intro l
  induction l with
  | nil => intro h; cases h
  | cons a l ih =>
    intro h
    cases h with
    | rel h => exact hr a h
    | cons h => exact ih h

theorem combs_props (A : List α) : ∀ K, K ≤ A.length → ∃ L, combs A K = some L ∧ (∀ c, c ∈ L ↔ c.Sublist A ∧ c.length = K) ∧
    L.length = A.length.choose K ∧ ∀ r : α → α → Prop, A.Pairwise r → L.Pairwise (List.Lex r) := by
  induction A with
  | nil =>
    intro K hK
    have : K = 0 := by simpa using hK
    subst this
    exact ⟨[[]], by simp [combs], by intro c; simp +contextual, by simp, by simp⟩
  | cons a A ih =>
    intro K hK
    cases K with
    | zero => exact ⟨[[]], by simp [combs], by intro c; simp +contextual, by simp, by simp⟩
    | succ K =>
      rw [combs]
      by_cases he : (a :: A).length = K + 1
      · rw [if_pos he]
        refine ⟨_, rfl, ?_, by simp [← he], by simp⟩
        intro c
        simp only [List.mem_singleton]
        constructor
        · rintro rfl; exact ⟨List.Sublist.refl _, he⟩
        · rintro ⟨h1, h2⟩; exact h1.eq_of_length (by omega)
      · rw [if_neg he]
        simp only [List.length_cons] at hK he
        obtain ⟨l, hl, hm, hc, hx⟩ := ih K (by omega)
        obtain ⟨l', hl', hm', hc', hx'⟩ := ih (K + 1) (by omega)
        refine ⟨mapcons a l ++ l', by simp [hl, hl'], ?_, ?_, ?_⟩
        · intro c
          simp only [mapcons, List.mem_append, List.mem_map, hm, hm']
          constructor
          · rintro (⟨d, ⟨h1, h2⟩, rfl⟩ | ⟨h1, h2⟩)
            · exact ⟨h1.cons_cons a, by simp [h2]⟩
            · exact ⟨h1.cons a, h2⟩
          · rintro ⟨h1, h2⟩
            cases h1 with
            | cons _ h1 => exact .inr ⟨h1, h2⟩
            | cons_cons _ h1 => exact .inl ⟨_, ⟨h1, by simpa using h2⟩, rfl⟩
        · simp [mapcons, hc, hc', Nat.choose_succ_succ]
        · intro r hr
          rw [List.pairwise_cons] at hr
          rw [List.pairwise_append]
          refine ⟨?_, hx' r hr.2, ?_⟩
          · rw [mapcons, List.pairwise_map]
            exact (hx r hr.2).imp fun h => .cons h
          · intro c hc d hd
            simp only [mapcons, List.mem_map] at hc
            obtain ⟨c, -, rfl⟩ := hc
            have hd := (hm' d).mp hd
            cases d with
            | nil => simp at hd
            | cons x d => exact .rel (hr.1 x (hd.1.subset (by simp)))

/-- C45. `combs<A, K>` has exactly the subsequences of `A` of length `K`. They aren't repeated if the elements of `A` aren't, and they
come in lexicographic order if the elements of `A` are ordered. -/
theorem C45_combs (A : List α) (K : Nat) (hK : K ≤ A.length) : ∃ L, combs A K = some L ∧
    (∀ c, c ∈ L ↔ c.Sublist A ∧ c.length = K) ∧ L.length = A.length.choose K ∧ (A.Nodup → L.Nodup) ∧
    ∀ r : α → α → Prop, A.Pairwise r → L.Pairwise (List.Lex r) := by
  obtain ⟨L, h1, h2, h3, h4⟩ := combs_props A K hK
  refine ⟨L, h1, h2, h3, ?_, h4⟩
  intro hA
  refine (h4 (· ≠ ·) hA).imp ?_
  rintro c d hcd rfl
  exact lex_irrefl (by simp) c hcd

/-- C45. There are no combinations of more elements than there are: it's an error when compiling. -/
theorem C45_combs_none (A : List α) : ∀ K, A.length < K → combs A K = none := by
  induction A with
  | nil => intro K hK; cases K with
    | zero => simp at hK
    | succ K => rfl
  | cons a A ih =>
    intro K hK
    cases K with
    | zero => simp at hK
    | succ K =>
      simp only [List.length_cons] at hK
      rw [combs, if_neg (by simp; omega), ih K (by omega)]
      rfl

example : combs [3, 1, 4, 5] 2 = some [[3, 1], [3, 4], [3, 5], [1, 4], [1, 5], [4, 5]] := by decide

/-! ## Signs -/

theorem isSign_trans {A B C : List α} {s t : Int} (h1 : IsSign A B s) (h2 : IsSign B C t) : IsSign A C (s * t) := by
  obtain ⟨n, σ, f, rfl, rfl, rfl⟩ := h1
  obtain ⟨n', τ, g, rfl, hB, rfl⟩ := h2
  have hn : n = n' := by simpa using congrArg List.length hB
  subst hn
  have := List.ofFn_injective hB
  subst this
  refine ⟨n, τ * σ, g, rfl, rfl, ?_⟩
  simp [mul_comm]

theorem permsign_trans {A B C : List α} (h : A.Perm B) (hC : C.Nodup) : permsign A C = permsign A B * permsign B C := by
  by_cases hp : B.Perm C
  · have hB : B.Nodup := hp.nodup_iff.mpr hC
    exact C46_permsign A C hC _ (isSign_trans (C46_sign_exists A B hB h).1 (C46_sign_exists B C hC hp).1)
  · rw [(C46_zero B C).mpr hp, (C46_zero A C).mpr fun q => hp (h.symm.trans q)]; simp

theorem permsign_cons_same (x : α) (A B : List α) : permsign (x :: A) (x :: B) = permsign A B := by
  rw [permsign_cons]; simp

theorem permsign_append_same (X A B : List α) : permsign (X ++ A) (X ++ B) = permsign A B := by
  induction X with
  | nil => rfl
  | cons x X ih => rw [List.cons_append, List.cons_append, permsign_cons_same, ih]

theorem permsign_self (A : List α) : permsign A A = 1 := by
  have := permsign_append_same A [] []
  simpa [permsign] using this

theorem permsign_swap2 {a b : α} (E : List α) (h : a ≠ b) : permsign (b :: a :: E) (a :: b :: E) = -1 := by
  rw [permsign_cons, if_pos (by simp), List.idxOf_cons_ne _ h.symm]
  simp [permsign_self]

theorem permsign_rotate (A : List α) : ∀ B : List α, (A ++ B).Nodup → permsign (A ++ B) (B ++ A) = (-1) ^ (A.length * B.length) := by
  intro B
  induction B with
  | nil => intro _; simp [permsign_self]
  | cons b B ih =>
    intro h
    have hb : b ∉ A := by
      intro hb
      rw [List.nodup_append] at h
      exact h.2.2 b hb b (by simp) rfl
    rw [List.cons_append, permsign_cons, if_pos (by simp), List.idxOf_append_of_notMem hb]
    simp only [List.idxOf_cons_self, Nat.add_zero]
    rw [List.eraseIdx_append_of_length_le (le_refl _)]
    simp only [Nat.sub_self, List.eraseIdx_cons_zero]
    rw [ih (List.Nodup.sublist (List.Sublist.append_left (List.sublist_cons_self b B) A) h)]
    rw [← pow_add, List.length_cons, Nat.mul_succ]

theorem permsign_sq {A B : List α} (hB : B.Nodup) (h : A.Perm B) : permsign A B * permsign A B = 1 := by
  rcases (C46_sign_exists A B hB h).2 with e | e <;> simp [e]

theorem permsign_symm {A B : List α} (hB : B.Nodup) : permsign A B = permsign B A := by
  by_cases h : A.Perm B
  · have hA : A.Nodup := h.nodup_iff.mpr hB
    have h1 := permsign_trans h hA
    rw [permsign_self] at h1
    rcases (C46_sign_exists A B hB h).2 with e | e <;> rcases (C46_sign_exists B A hA h.symm).2 with e' | e' <;> simp [e, e'] at h1 ⊢
  · rw [(C46_zero A B).mpr h, (C46_zero B A).mpr fun q => h q.symm]

/-! ## Complements -/

/-- Lists that stand for sets of numbers below `D`. -/
def Below (D : Nat) (C : List Nat) : Prop := C.Nodup ∧ ∀ x ∈ C, x < D

theorem Below.perm {D : Nat} {C C' : List Nat} (h : Below D C) (p : C.Perm C') : Below D C' :=
  ⟨p.nodup_iff.mp h.1, fun x hx => h.2 x (p.mem_iff.mpr hx)⟩

theorem complement_below {C : List Nat} {D : Nat} : Below D (complement C D) := by
  rw [C46_complement]
  exact ⟨List.nodup_range.filter _, by intro x hx; simp at hx; exact hx.1⟩

theorem mem_complement {C : List Nat} {D x : Nat} : x ∈ complement C D ↔ x < D ∧ x ∉ C := by
  rw [C46_complement]; simp

theorem append_complement {C : List Nat} {D : Nat} (h : Below D C) : (C ++ complement C D).Perm (List.range D) := by
  rw [List.perm_ext_iff_of_nodup]
  · intro x
    rw [List.mem_append, mem_complement, List.mem_range]
    constructor
    · rintro (hx | hx)
      · exact h.2 x hx
      · exact hx.1
    · intro hx
      by_cases hc : x ∈ C
      · exact .inl hc
      · exact .inr ⟨hx, hc⟩
  · rw [List.nodup_append]
    refine ⟨h.1, complement_below.1, ?_⟩
    rintro a ha b hb rfl
    exact (mem_complement.mp hb).2 ha
  · exact List.nodup_range

theorem length_complement {C : List Nat} {D : Nat} (h : Below D C) : C.length + (complement C D).length = D := by
  have := (append_complement h).length_eq
  simpa using this

theorem below_length {C : List Nat} {D : Nat} (h : Below D C) : C.length ≤ D := by
  have := length_complement h
  omega

theorem complement_perm {C C' : List Nat} (D : Nat) (h : C.Perm C') : complement C D = complement C' D := by
  simp only [C46_complement, h.mem_iff]

theorem complement_inv {C C' : List Nat} {D : Nat} (h : Below D C) (h' : Below D C') (hp : (complement C D).Perm (complement C' D)) : C.Perm C' := by
  rw [List.perm_ext_iff_of_nodup h.1 h'.1]
  intro x
  have := hp.mem_iff (a := x)
  rw [mem_complement, mem_complement] at this
  have h1 := h.2 x
  have h2 := h'.2 x
  tauto

theorem complement_complement {C : List Nat} {D : Nat} (h : Below D C) : (complement (complement C D) D).Perm C := by
  rw [List.perm_ext_iff_of_nodup complement_below.1 h.1]
  intro x
  rw [mem_complement, mem_complement]
  have h1 := h.2 x
  tauto

theorem anticomb_props {C : List Nat} {D : Nat} (h : Below D C) (hl : C.length + 2 ≤ D) :
    ∃ E, anticomb C D = some E ∧ E.Perm (complement C D) ∧ permsign (C ++ E) (List.range D) = 1 := by
  have hc := length_complement h
  have hs := (C46_sign_exists _ _ List.nodup_range (append_complement h)).2
  have hnd := (complement_below (C := C) (D := D)).1
  unfold anticomb
  rw [mpIota_zero]
  generalize complement C D = EC at *
  match EC with
  | [] => simp at hc; omega
  | [_] => simp at hc; omega
  | e0 :: e1 :: E =>
    have hne : e0 ≠ e1 := by
      simp only [List.nodup_cons, List.mem_cons, not_or] at hnd
      exact hnd.1.1
    by_cases hsg : permsign (C ++ e0 :: e1 :: E) (List.range D) < 0
    · refine ⟨_, by simp only [hsg, if_true], List.Perm.swap e0 e1 E, ?_⟩
      have hp : (C ++ e1 :: e0 :: E).Perm (C ++ e0 :: e1 :: E) := (List.Perm.swap e0 e1 E).append_left C
      rw [permsign_trans hp List.nodup_range, permsign_append_same, permsign_swap2 E hne]
      omega
    · refine ⟨_, by simp only [hsg, if_false], List.Perm.refl _, by omega⟩

/-! ## Bases -/

theorem perm_sublist_range {D : Nat} {A B : List Nat} (hA : A.Sublist (List.range D)) (hB : B.Sublist (List.range D)) (h : A.Perm B) : A = B := by
  have hr : (List.range D).Pairwise (· < ·) := List.pairwise_lt_range
  refine h.eq_of_pairwise (le := (· < ·)) ?_ (hr.sublist hA) (hr.sublist hB)
  intro a b _ _ h1 h2
  omega

/-- Another form of `IsBasis`. -/
theorem isBasis_iff {D O : Nat} {L : List (List Nat)} : IsBasis D O L ↔ (∀ c ∈ L, Below D c ∧ c.length = O) ∧
    ∀ P, Below D P → P.length = O → ∃ (k : Nat) (A : List Nat), L[k]? = some A ∧ P.Perm A ∧ ∀ (k' : Nat) (A' : List Nat), L[k']? = some A' → P.Perm A' → k' = k := by
  unfold IsBasis
  constructor
  · rintro ⟨h1, h2⟩
    have hb : ∀ c ∈ L, Below D c ∧ c.length = O := fun c hc => ⟨⟨(h1 c hc).1, (h1 c hc).2.2⟩, (h1 c hc).2.1⟩
    refine ⟨hb, fun P hP hl => ?_⟩
    obtain ⟨k, ⟨A, hk, hA⟩, hu⟩ := h2 P.toFinset (by simpa using hP.2) (by rw [List.toFinset_card_of_nodup hP.1, hl])
    refine ⟨k, A, hk, ?_, ?_⟩
    · exact List.perm_of_nodup_nodup_toFinset_eq hP.1 (hb A (List.mem_of_getElem? hk)).1.1 hA.symm
    · intro k' A' hk' hp
      exact hu k' ⟨A', hk', (List.toFinset_eq_of_perm _ _ hp).symm⟩
  · rintro ⟨h1, h2⟩
    refine ⟨fun c hc => ⟨(h1 c hc).1.1, (h1 c hc).2, (h1 c hc).1.2⟩, fun s hs hc => ?_⟩
    obtain ⟨k, A, hk, hp, hu⟩ := h2 s.toList ⟨s.nodup_toList, by simpa using hs⟩ (by simp [hc])
    refine ⟨k, ⟨A, hk, ?_⟩, ?_⟩
    · rw [← List.toFinset_eq_of_perm _ _ hp]; simp
    · rintro k' ⟨A', hk', rfl⟩
      refine hu k' A' hk' ?_
      rw [List.perm_ext_iff_of_nodup (Finset.nodup_toList _) (h1 A' (List.mem_of_getElem? hk')).1.1]
      simp

theorem combs_basis {D O : Nat} (h : O ≤ D) : ∃ L, combs (List.range D) O = some L ∧ IsBasis D O L ∧ L.length = D.choose O ∧ ∀ c ∈ L, c.Sublist (List.range D) := by
  obtain ⟨L, h1, h2, h3, h4, h5⟩ := C45_combs (List.range D) O (by simpa using h)
  refine ⟨L, h1, isBasis_iff.mpr ⟨?_, ?_⟩, by simpa using h3, fun c hc => ((h2 c).mp hc).1⟩
  · intro c hc
    have hc := (h2 c).mp hc
    exact ⟨⟨List.nodup_range.sublist hc.1, fun x hx => by simpa using hc.1.subset hx⟩, hc.2⟩
  · intro P hP hl
    have hp : P.Perm ((List.range D).filter (fun x => decide (x ∈ P))) := by
      rw [List.perm_ext_iff_of_nodup hP.1 (List.nodup_range.filter _)]
      intro x
      have := hP.2 x
      simp
      tauto
    have hm : (List.range D).filter (fun x => decide (x ∈ P)) ∈ L := (h2 _).mpr ⟨List.filter_sublist, by rw [← hp.length_eq, hl]⟩
    obtain ⟨k, hk⟩ := List.mem_iff_getElem?.mp hm
    refine ⟨k, _, hk, hp, ?_⟩
    intro k' A' hk' hp'
    have e : A' = (List.range D).filter (fun x => decide (x ∈ P)) :=
      perm_sublist_range ((h2 A').mp (List.mem_of_getElem? hk')).1 List.filter_sublist (hp'.symm.trans hp)
    rw [e, ← hk] at hk'
    have hlt : k' < L.length := by
      by_contra hlt
      rw [List.getElem?_eq_none (by omega), hk] at hk'
      simp at hk'
    exact (List.getElem?_inj hlt (h4 List.nodup_range)).mp hk'

theorem mapM_some {β γ : Type} (f : β → Option γ) : ∀ L : List β, (∀ x ∈ L, ∃ y, f x = some y) → ∃ L', L.mapM f = some L' ∧ List.Forall₂ (fun x y => f x = some y) L L' := by
  intro L
  induction L with
  | nil => intro _; exact ⟨[], rfl, .nil⟩
  | cons x L ih =>
    intro h
    obtain ⟨y, hy⟩ := h x (by simp)
    obtain ⟨L', h1, h2⟩ := ih fun z hz => h z (by simp [hz])
    exact ⟨y :: L', by simp [hy, h1], .cons hy h2⟩

theorem mapanticomb_props {D O : Nat} {L : List (List Nat)} (hb : IsBasis D O L) (hO : O + 2 ≤ D) :
    ∃ L', mapanticomb L D = some L' ∧ IsBasis D (D - O) L' ∧
      List.Forall₂ (fun C E => E.Perm (complement C D) ∧ permsign (C ++ E) (List.range D) = 1) L L' := by
  rw [isBasis_iff] at hb
  obtain ⟨L', h1, h2⟩ := mapM_some (anticomb · D) L fun C hC => by
    obtain ⟨E, hE, -⟩ := anticomb_props (hb.1 C hC).1 (by rw [(hb.1 C hC).2]; omega)
    exact ⟨E, hE⟩
  have h3 : List.Forall₂ (fun C E => E.Perm (complement C D) ∧ permsign (C ++ E) (List.range D) = 1) L L' := by
    rw [List.forall₂_iff_get] at h2 ⊢
    refine ⟨h2.1, fun i hi hi' => ?_⟩
    have := h2.2 i hi hi'
    have hm := hb.1 (L.get ⟨i, hi⟩) (List.get_mem L ⟨i, hi⟩)
    obtain ⟨E, hE, hE'⟩ := anticomb_props hm.1 (by rw [hm.2]; omega)
    rw [hE] at this
    simp only [Option.some.injEq] at this
    rw [← this]
    exact hE'
  refine ⟨L', h1, isBasis_iff.mpr ⟨?_, ?_⟩, h3⟩
  · intro E hE
    obtain ⟨i, hi, rfl⟩ := List.getElem_of_mem hE
    rw [List.forall₂_iff_get] at h3
    have hp := (h3.2 i (by omega) hi).1
    have hm := hb.1 (L[i]'(by omega)) (List.getElem_mem _)
    have hcl := length_complement hm.1
    refine ⟨complement_below.perm hp.symm, ?_⟩
    have := hp.length_eq
    simp only [List.get_eq_getElem] at this
    omega
  · intro P hP hl
    have hPl := length_complement hP
    obtain ⟨k, A, hk, hpA, hu⟩ := hb.2 (complement P D) complement_below (by omega)
    rw [List.forall₂_iff_get] at h3
    have hkl : k < L.length := by
      by_contra hlt
      rw [List.getElem?_eq_none (by omega)] at hk
      simp at hk
    have hkA : L[k] = A := by rw [List.getElem?_eq_getElem hkl] at hk; simpa using hk
    have hp := (h3.2 k hkl (by omega)).1
    simp only [List.get_eq_getElem, hkA] at hp
    refine ⟨k, L'[k]'(by omega), List.getElem?_eq_getElem _, ?_, ?_⟩
    · refine List.Perm.trans ?_ hp.symm
      rw [← complement_perm D hpA]
      exact (complement_complement hP).symm
    · intro k' A' hk' hpA'
      have hk'l : k' < L'.length := by
        by_contra hlt
        rw [List.getElem?_eq_none (by omega)] at hk'
        simp at hk'
      have hkA' : L'[k'] = A' := by rw [List.getElem?_eq_getElem hk'l] at hk'; simpa using hk'
      have hp' := (h3.2 k' (by omega) hk'l).1
      simp only [List.get_eq_getElem, hkA'] at hp'
      refine hu k' (L[k']'(by omega)) (List.getElem?_eq_getElem _) ?_
      rw [complement_perm D (hpA'.trans hp')]
      exact complement_complement (hb.1 _ (List.getElem_mem _)).1

/-- C45. `choose<D, O>` is made without errors. It has each set of `O` numbers below `D` once, in some arrangement, so there are as many
as the binomial coefficient. -/
theorem C45_choose (D O : Nat) (h : O ≤ D) : ∃ L, choose D O = some L ∧ IsBasis D O L ∧ L.length = D.choose O := by
  by_cases h2 : D > 1 ∧ 2 * O > D
  · obtain ⟨L, hL, hb, hl, -⟩ := combs_basis (D := D) (O := D - O) (by omega)
    obtain ⟨L', hL', hb', hf⟩ := mapanticomb_props hb (by omega)
    refine ⟨L', ?_, ?_, ?_⟩
    · rw [choose, chooseN, if_neg (by omega), if_pos h2, chooseN, if_neg (by omega), if_neg (by omega), mpIota_zero, hL]
      exact hL'
    · rwa [Nat.sub_sub_self h] at hb'
    · rw [← hf.length_eq, hl, Nat.choose_symm h]
  · obtain ⟨L, hL, hb, hl, -⟩ := combs_basis h
    refine ⟨L, ?_, hb, hl⟩
    rw [choose, chooseN, if_neg (by omega), if_neg h2, mpIota_zero, hL]

/-- C45. In the upper half, each arrangement is such that the complement in the lower half followed by it has positive sign. -/
theorem C45_choose_sign (D O : Nat) (hD : D > 1) (h : O ≤ D) (h2 : 2 * O > D) : ∃ L L', choose D (D - O) = some L ∧ choose D O = some L' ∧
    List.Forall₂ (fun C E => permsign (C ++ E) (List.range D) = 1) L L' := by
  obtain ⟨L, hL, hb, hl, -⟩ := combs_basis (D := D) (O := D - O) (by omega)
  obtain ⟨L', hL', hb', hf⟩ := mapanticomb_props hb (by omega)
  have h1 (f : Nat) : chooseN (f + 1) D (D - O) = some L := by rw [chooseN, if_neg (by omega), if_neg (by omega), mpIota_zero, hL]
  refine ⟨L, L', h1 1, ?_, hf.imp fun _ _ h => h.2⟩
  rw [choose, chooseN, if_neg (by omega), if_pos ⟨hD, h2⟩, h1 0]
  exact hL'

/-- C45. Otherwise it's an error when compiling. -/
theorem C45_choose_none (D O : Nat) (h : D < O) : choose D O = none := by
  rw [choose, chooseN, if_pos (by omega)]

example : choose 4 3 = some [[1, 2, 3], [2, 0, 3], [0, 1, 3], [1, 0, 2]] := by decide +kernel

end Ra.Props
