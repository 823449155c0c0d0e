import Verif.Props.Wedge
/-!
# Hodge star: C48
-/
set_option linter.unusedSectionVars false

namespace Ra.Props
open Spec ExteriorAlgebra

variable {R : Type} [CommRing R]

/-- `A` and `B` are complementary. -/
abbrev Compl (D : Nat) (A B : List Nat) : Prop := (A ++ B).Perm (List.range D)

theorem compl_iff {D : Nat} {A B : List Nat} (hA : Below D A) : Compl D A B ↔ (complement A D).Perm B := by
  constructor
  · intro h
    exact (List.perm_append_left_iff A).mp ((append_complement hA).trans h.symm)
  · intro h
    exact (h.symm.append_left A).trans (append_complement hA)

theorem choose_full (D : Nat) : ∃ X, choose D D = some [X] ∧ X.Perm (List.range D) ∧ permsign X (List.range D) = 1 := by
  obtain ⟨C, hC, hb, hl⟩ := C45_choose D D (le_refl D)
  rw [Nat.choose_self] at hl
  obtain ⟨X, rfl⟩ := List.length_eq_one_iff.mp hl
  refine ⟨X, hC, ?_⟩
  have key : permsign X (List.range D) = 1 := by
    by_cases hD : D > 1
    · obtain ⟨L, L', h1, h2, h3⟩ := C45_choose_sign D D hD (le_refl D) (by omega)
      rw [hC] at h2
      simp only [Option.some.injEq] at h2
      subst h2
      obtain ⟨Y, hY⟩ := List.length_eq_one_iff.mp h3.length_eq
      subst hY
      rw [Nat.sub_self] at h1
      obtain ⟨C0, hC0, hb0, -⟩ := C45_choose D 0 (by omega)
      rw [h1] at hC0
      simp only [Option.some.injEq] at hC0
      subst hC0
      have hYl := (hb0.1 Y (by simp)).2.1
      rw [List.length_eq_zero_iff] at hYl
      subst hYl
      cases h3 with
      | cons h _ => simpa using h
    · have hp := ((isBasis_iff.mp hb).1 X (by simp))
      have hp2 := (isBasis_iff.mp hb).2 (List.range D) ⟨List.nodup_range, by simp⟩ (by simp)
      obtain ⟨k, A, hk, hpA, -⟩ := hp2
      have hAX : A = X := by simpa using List.mem_of_getElem? hk
      subst hAX
      have hx := perm_sublist_range (D := D) (A := A) (B := List.range D)
      have : A = List.range D := by
        have : D = 0 ∨ D = 1 := by omega
        rcases this with rfl | rfl
        · simpa using hpA.symm.eq_nil
        · have h1 : List.range 1 = [0] := rfl
          rw [h1] at hpA ⊢
          exact (List.perm_singleton.mp hpA.symm)
      rw [this, permsign_self]
  refine ⟨?_, key⟩
  rw [← permsign_ne_zero, key]
  decide

theorem hodgeAux_props {D O : Nat} (hO : O ≤ D) {Ca Cb Lex : List (List Nat)} {X : List Nat} (ha : IsBasis D O Ca) (hb : IsBasis D (D - O) Cb)
    (hL : IsBasis D O Lex) (hXs : permsign X (List.range D) = 1) {a : List R} (hal : a.length = Ca.length) :
    ∀ (L : List (List Nat)) (i : Nat) (b : List R), Ca.drop i = L → b.length = Cb.length →
      ∃ r, hodgeAux D O Lex Cb [X] a i L b = some r ∧ r.length = Cb.length ∧ ∀ (k : Nat) (B : List Nat), Cb[k]? = some B →
        (∀ (i' : Nat) (A : List Nat), i ≤ i' → Ca[i']? = some A → Compl D A B → r.getD k 0 = (permsign (A ++ B) (List.range D) : R) * a.getD i' 0) ∧
        ((∀ (i' : Nat) (A : List Nat), i ≤ i' → Ca[i']? = some A → ¬ Compl D A B) → r.getD k 0 = b.getD k 0) := by
  have hXp : X.Perm (List.range D) := by rw [← permsign_ne_zero, hXs]; decide
  have hXn : X.Nodup := hXp.nodup_iff.mpr List.nodup_range
  have ha' := isBasis_iff.mp ha
  have hb' := isBasis_iff.mp hb
  intro L
  induction L with
  | nil =>
    intro i b hd hbl
    refine ⟨b, rfl, hbl, ?_⟩
    intro k B hB
    refine ⟨fun i' A hi hA => ?_, fun _ => rfl⟩
    have := lt_of_getElem? hA
    rw [List.drop_eq_nil_iff] at hd
    omega
  | cons C L ih =>
    intro i b hd hbl
    have hi : i < Ca.length := by
      by_contra hn
      rw [List.drop_eq_nil_of_le (by omega)] at hd
      simp at hd
    have hCi : Ca[i]? = some C := by
      have := List.head?_drop (l := Ca) (i := i)
      rw [hd] at this
      simpa using this.symm
    have hd' : Ca.drop (i + 1) = L := by
      have := congrArg List.tail hd
      simpa [List.tail_drop] using this
    obtain ⟨hC, hCl⟩ := ha'.1 C (List.mem_of_getElem? hCi)
    obtain ⟨kl, S, hkl, hSp, hwl, -, -⟩ := basis_sum hL hC hCl
    have hcompl : complement S D = complement C D := (complement_perm D hSp).symm
    have hcl := length_complement hC
    obtain ⟨w, Bw, hw, hwp, hww, -, -⟩ := basis_sum hb (complement_below (C := C) (D := D)) (by omega)
    have hCB : Compl D C Bw := (compl_iff hC).mpr hwp
    have hsX : findSign (C ++ Bw) [X] = permsign (C ++ Bw) (List.range D) := by
      have h1 := (C46_findcomb (C ++ Bw) [X] 0 X rfl (hCB.trans hXp.symm) (by
        intro k' A' hk' _
        have := lt_of_getElem? hk'
        simp at this
        omega)).2
      rw [h1, permsign_trans hCB hXn, permsign_symm hXn, hXs, mul_one]
    have hne : findSign (C ++ Bw) [X] ≠ 0 := by rw [hsX, permsign_ne_zero]; exact hCB
    have hwlt := lt_of_getElem? hw
    have hgi : a[i]? = some (a.getD i 0) := getElem?_getD (by omega)
    obtain ⟨r, hr, hrl, hrk⟩ := ih (i + 1) (b.set w ((findSign (C ++ Bw) [X] : R) * a.getD i 0)) hd' (by simp [hbl])
    refine ⟨r, ?_, hrl, ?_⟩
    · rw [hodgeAux]
      simp only [hwl]
      rw [if_neg (by omega)]
      simp only [Int.toNat_natCast, hkl, Option.bind_eq_bind, Option.bind_some, hcompl, hww]
      rw [if_pos ⟨by omega, by omega, by omega⟩]
      simp only [Int.toNat_natCast, hw, hgi, Option.bind_some]
      rw [if_pos hne]
      exact hr
    · intro k B hB
      obtain ⟨h1, h2⟩ := hrk k B hB
      have hBb := hb'.1 B (List.mem_of_getElem? hB)
      -- for each k there's one i
      have uniq (i1 i2 : Nat) (A1 A2 : List Nat) (e1 : Ca[i1]? = some A1) (e2 : Ca[i2]? = some A2) (c1 : Compl D A1 B) (c2 : Compl D A2 B) : i1 = i2 := by
        have q : A1.Perm A2 := (List.perm_append_right_iff B).mp (c1.trans c2.symm)
        have hA1 := ha'.1 A1 (List.mem_of_getElem? e1)
        obtain ⟨k0, A0, -, -, hu⟩ := ha'.2 A1 hA1.1 hA1.2
        rw [hu i1 A1 e1 (List.Perm.refl _), hu i2 A2 e2 q]
      -- and the other way around
      have uniq' (hc : Compl D C B) : k = w := by
        obtain ⟨k0, B0, -, -, hu⟩ := hb'.2 (complement C D) complement_below (by omega)
        rw [hu k B hB ((compl_iff hC).mp hc), hu w Bw hw hwp]
      constructor
      · intro i' A hi' hA hc
        by_cases e : i' = i
        · subst e
          rw [hCi] at hA
          simp only [Option.some.injEq] at hA
          subst hA
          have hkw := uniq' hc
          subst hkw
          rw [hw] at hB
          simp only [Option.some.injEq] at hB
          subst hB
          rw [h2 ?_]
          · rw [← hsX]
            have : k < b.length := by omega
            simp [List.getD, this]
          · intro i'' A'' hi'' hA'' hc''
            have := uniq i'' i' A'' C hA'' hCi hc'' hc
            omega
        · exact h1 i' A (by omega) hA hc
      · intro hn
        have hkw : w ≠ k := by
          rintro rfl
          rw [hw] at hB
          simp only [Option.some.injEq] at hB
          subst hB
          exact hn i C (le_refl i) hCi hCB
        rw [h2 fun i' A hi' => hn i' A (by omega)]
        simp [List.getD, List.getElem?_set_ne hkw]

/-- C48. What `hodgex` does, for all orders: if the index lists of component `i` of `a` and of component `k` of the result are complementary, then
component `k` of the result is component `i` of `a`, with the sign of the permutation from one index list after the other to `[0, 1, ..., D-1]`. -/
theorem C48_hodgex (D O : Nat) (hO : O ≤ D) (a b : List R) (ha : a.length = D.choose O) (hb : b.length = D.choose (D - O)) :
    ∃ Ca Cb r, choose D O = some Ca ∧ choose D (D - O) = some Cb ∧ hodgex D O a b = some r ∧ r.length = D.choose (D - O) ∧
      ∀ (i k : Nat) (A B : List Nat), Ca[i]? = some A → Cb[k]? = some B → ∀ s, IsSign (A ++ B) (List.range D) s →
        r.getD k 0 = (s : R) * a.getD i 0 := by
  obtain ⟨Ca, hCa, hba, hla⟩ := C45_choose D O hO
  obtain ⟨Cb, hCb, hbb, hlb⟩ := C45_choose D (D - O) (by omega)
  obtain ⟨X, hX, hXp, hXs⟩ := choose_full D
  obtain ⟨Lex, hLex, hbL, -, -⟩ := combs_basis hO
  obtain ⟨r, hr, hrl, hrk⟩ := hodgeAux_props hO hba hbb hbL hXs (a := a) (by omega) Ca 0 b (by simp) (by omega)
  refine ⟨Ca, Cb, r, hCa, hCb, ?_, by omega, ?_⟩
  · rw [hodgex, if_pos hO, hCa, hCb, Nat.add_sub_cancel' hO, hX, mpIota_zero, hLex]
    simp only [Option.bind_eq_bind, Option.bind_some, C44_binom, ha, hb, and_self, if_true]
    exact hr
  · intro i k A B hA hB s hs
    have e := C46_permsign _ _ List.nodup_range s hs
    have hc : Compl D A B := by
      rw [Compl, ← permsign_ne_zero, e]
      obtain ⟨n, σ, f, -, -, rfl⟩ := hs
      rcases Int.units_eq_one_or (Equiv.Perm.sign σ) with e | e <;> simp [e]
    rw [(hrk k B hB).1 i A (by omega) hA hc, e]

theorem isSign_of_perm {D : Nat} {A B : List Nat} (h : Compl D A B) : IsSign (A ++ B) (List.range D) (permsign (A ++ B) (List.range D)) :=
  (C46_sign_exists _ _ List.nodup_range h).1

/-- In the cases where `hodge` is a copy, elements of the bases at the same place are complementary, with positive sign. -/
theorem trivial_bases {D O : Nat} (hO : O ≤ D) (ht : hodgeTrivial D O = true) : ∃ Ca Cb, choose D O = some Ca ∧ choose D (D - O) = some Cb ∧
    List.Forall₂ (fun A B => permsign (A ++ B) (List.range D) = 1) Ca Cb := by
  simp only [hodgeTrivial, Bool.and_eq_true, decide_eq_true_eq, Bool.or_eq_true, Bool.not_eq_true', decide_eq_false_iff_not] at ht
  obtain ⟨h1, h2⟩ := ht
  by_cases hD : D > 1
  · by_cases hlt : 2 * O < D
    · have := C45_choose_sign D (D - O) hD (by omega) (by omega)
      rwa [Nat.sub_sub_self hO] at this
    · obtain ⟨Cb, Ca, hCb, hCa, hf⟩ := C45_choose_sign D O hD hO (by omega)
      refine ⟨Ca, Cb, hCa, hCb, ?_⟩
      have hpar : ¬ O * (D - O) % 2 = 1 := h2.resolve_left hlt
      have hba : IsBasis D O Ca := by
        obtain ⟨C, hC, hb, -⟩ := C45_choose D O hO
        rw [hCa] at hC
        simp only [Option.some.injEq] at hC
        exact hC ▸ hb
      have hbb : IsBasis D (D - O) Cb := by
        obtain ⟨C, hC, hb, -⟩ := C45_choose D (D - O) (by omega)
        rw [hCb] at hC
        simp only [Option.some.injEq] at hC
        exact hC ▸ hb
      rw [List.forall₂_iff_get] at hf ⊢
      refine ⟨hf.1.symm, fun i hi hi' => ?_⟩
      have hs := hf.2 i hi' hi
      have hp : Compl D (Cb.get ⟨i, hi'⟩) (Ca.get ⟨i, hi⟩) := by rw [Compl, ← permsign_ne_zero, hs]; decide
      have hn : (Ca.get ⟨i, hi⟩ ++ Cb.get ⟨i, hi'⟩).Nodup := (List.perm_append_comm.trans hp).nodup_iff.mpr List.nodup_range
      rw [permsign_trans (B := Cb.get ⟨i, hi'⟩ ++ Ca.get ⟨i, hi⟩) List.perm_append_comm List.nodup_range, hs, permsign_rotate _ _ hn,
        ((isBasis_iff.mp hba).1 _ (List.get_mem _ _)).2, ((isBasis_iff.mp hbb).1 _ (List.get_mem _ _)).2, mul_one]
      exact Even.neg_one_pow (Nat.even_iff.mpr (by omega))
  · have : D = 1 := by omega
    subst this
    have : O = 0 ∨ O = 1 := by omega
    rcases this with rfl | rfl
    · exact ⟨[[]], [[0]], by decide +kernel, by decide +kernel, .cons (by decide) .nil⟩
    · exact ⟨[[0]], [[]], by decide +kernel, by decide +kernel, .cons (by decide) .nil⟩

/-- C48. `hodge` and `hodgex` agree for all `D` and `O`. -/
theorem C48_hodge (D O : Nat) (hO : O ≤ D) (a b : List R) (ha : a.length = D.choose O) (hb : b.length = D.choose (D - O)) :
    ∃ r, hodgex D O a b = some r ∧ hodge D O a b = some r := by
  obtain ⟨Ca, Cb, r, hCa, hCb, hr, hrl, hrk⟩ := C48_hodgex D O hO a b ha hb
  refine ⟨r, hr, ?_⟩
  rw [hodge, if_pos hO]
  cases ht : hodgeTrivial D O with
  | false => simpa using hr
  | true =>
    simp only [C44_binom, ha, hb, and_self, if_true, Option.some.injEq]
    obtain ⟨Ca', Cb', hCa', hCb', hf⟩ := trivial_bases hO ht
    rw [hCa] at hCa'; rw [hCb] at hCb'
    simp only [Option.some.injEq] at hCa' hCb'
    subst hCa' hCb'
    rw [List.forall₂_iff_get] at hf
    have hsym := Nat.choose_symm hO
    have hla : Ca.length = D.choose O := by
      obtain ⟨C, hC, -, hl⟩ := C45_choose D O hO
      rw [hCa] at hC
      simp only [Option.some.injEq] at hC
      rw [hC, hl]
    apply List.ext_getElem (by omega)
    intro i h1 h2
    have hs := hf.2 i (by omega) (by omega)
    have hp : Compl D (Ca.get ⟨i, by omega⟩) (Cb.get ⟨i, by omega⟩) := by rw [Compl, ← permsign_ne_zero, hs]; decide
    have := hrk i i _ _ (List.getElem?_eq_getElem (by omega)) (List.getElem?_eq_getElem (by omega)) _ (isSign_of_perm hp)
    simp only [List.get_eq_getElem] at hs
    rw [hs] at this
    simpa [List.getD, h1, h2] using this.symm

/-- C48. `hodge` with one argument, that returns its argument or overwrites it, also agrees. -/
theorem C48_hodge1 (D O : Nat) (hO : O ≤ D) (a b : List R) (ha : a.length = D.choose O) (hb : b.length = D.choose (D - O)) :
    hodge1 D O a = hodge D O a b := by
  have hsym := Nat.choose_symm hO
  obtain ⟨Ca, Cb, r, hCa, hCb, hr, hrl, hrk⟩ := C48_hodgex D O hO a b ha hb
  obtain ⟨Ca', Cb', r', hCa', hCb', hr', hrl', hrk'⟩ := C48_hodgex D O hO a a ha (by omega)
  rw [hCa] at hCa'; rw [hCb] at hCb'
  simp only [Option.some.injEq] at hCa' hCb'
  subst hCa' hCb'
  rw [hodge1, hodge, if_pos hO, if_pos hO, hr, hr']
  simp only [C44_binom, ha, hb, and_self, if_true]
  split
  · rfl
  · -- the result doesn't depend on what was in the destination
    congr 1
    obtain ⟨C, hC, hba, -⟩ := C45_choose D O hO
    rw [hCa] at hC
    simp only [Option.some.injEq] at hC
    subst hC
    obtain ⟨C, hC, hbb, hlb⟩ := C45_choose D (D - O) (by omega)
    rw [hCb] at hC
    simp only [Option.some.injEq] at hC
    subst hC
    apply List.ext_getElem (by omega)
    intro k h1 h2
    have hBk : Cb[k]? = some (Cb.getD k []) := getElem?_getD (by omega)
    have hB := (isBasis_iff.mp hbb).1 _ (List.mem_of_getElem? hBk)
    have hcl := length_complement hB.1
    obtain ⟨i, A, hi, hp, -⟩ := (isBasis_iff.mp hba).2 (complement (Cb.getD k []) D) complement_below (by omega)
    have hc : Compl D A (Cb.getD k []) := List.perm_append_comm.trans ((compl_iff hB.1).mpr hp)
    have e1 := hrk i k _ _ hi hBk _ (isSign_of_perm hc)
    have e2 := hrk' i k _ _ hi hBk _ (isSign_of_perm hc)
    rw [← e1] at e2
    simpa [List.getD, h1, h2] using e2

/-- C48. `hodge` is the Hodge star: the product of any form `c` with `hodge(a)` is the volume form times the scalar product of `c` and `a`. -/
theorem C48_star (D O : Nat) (hO : O ≤ D) (a b c : List R) (ha : a.length = D.choose O) (hb : b.length = D.choose (D - O)) (hc : c.length = D.choose O) :
    ∃ Ca Cb r, choose D O = some Ca ∧ choose D (D - O) = some Cb ∧ hodge D O a b = some r ∧
      form Ca c * form Cb r = (∑ i ∈ Finset.range (D.choose O), c.getD i 0 * a.getD i 0) • mono R (List.range D) := by
  obtain ⟨Ca, Cb, r, hCa, hCb, hr, hrl, hrk⟩ := C48_hodgex D O hO a b ha hb
  obtain ⟨r', hr', hh⟩ := C48_hodge D O hO a b ha hb
  rw [hr] at hr'
  simp only [Option.some.injEq] at hr'
  subst hr'
  obtain ⟨C, hC, hba, hla⟩ := C45_choose D O hO
  rw [hCa] at hC
  simp only [Option.some.injEq] at hC
  subst hC
  obtain ⟨C, hC, hbb, hlb⟩ := C45_choose D (D - O) (by omega)
  rw [hCb] at hC
  simp only [Option.some.injEq] at hC
  subst hC
  refine ⟨Ca, Cb, r, hCa, hCb, hh, ?_⟩
  unfold form
  rw [Finset.sum_mul_sum, hla, Finset.sum_smul]
  refine Finset.sum_congr rfl fun i hi => ?_
  have hi : i < Ca.length := by simpa [hla] using hi
  have hAi : Ca[i]? = some (Ca.getD i []) := getElem?_getD hi
  have hA := (isBasis_iff.mp hba).1 _ (List.mem_of_getElem? hAi)
  have hcl := length_complement hA.1
  obtain ⟨k, B, hk, hp, hu⟩ := (isBasis_iff.mp hbb).2 (complement (Ca.getD i []) D) complement_below (by omega)
  have hcomp : Compl D (Ca.getD i []) B := (compl_iff hA.1).mpr hp
  rw [Finset.sum_eq_single k]
  · rw [smul_mul_smul_comm, ← mono_append, getD_of_getElem? hk, mono_perm List.nodup_range hcomp, smul_smul,
      hrk i k _ _ hAi hk _ (isSign_of_perm hcomp)]
    congr 1
    have := congrArg (Int.cast : Int → R) (permsign_sq List.nodup_range hcomp)
    push_cast at this
    calc _ = c.getD i 0 * a.getD i 0 *
          ((permsign (Ca.getD i [] ++ B) (List.range D) : R) * (permsign (Ca.getD i [] ++ B) (List.range D) : R)) := by ring
      _ = _ := by rw [this]; ring
  · intro j hj hjk
    have hj : j < Cb.length := by simpa using hj
    have hBj : Cb[j]? = some (Cb.getD j []) := getElem?_getD hj
    have hB := (isBasis_iff.mp hbb).1 _ (List.mem_of_getElem? hBj)
    rw [smul_mul_smul_comm, ← mono_append, mono_repeat, smul_zero]
    intro hn
    apply hjk
    refine hu j _ hBj ((compl_iff hA.1).mp ?_)
    have hb' : Below D (Ca.getD i [] ++ Cb.getD j []) := ⟨hn, by
      intro x hx
      rw [List.mem_append] at hx
      exact hx.elim (hA.1.2 x) (hB.1.2 x)⟩
    have hl0 := length_complement hb'
    rw [List.length_append, hA.2, hB.2] at hl0
    have h0 : complement (Ca.getD i [] ++ Cb.getD j []) D = [] := by
      rw [← List.length_eq_zero_iff]; omega
    have := append_complement hb'
    rwa [h0, List.append_nil] at this
  · intro hn
    exact absurd (lt_of_getElem? hk) (by simpa using hn)

/-- C48. The star twice is the identity, or a change of sign if `O*(D-O)` is odd. -/
theorem C48_twice (D O : Nat) (hO : O ≤ D) (a b b' : List R) (ha : a.length = D.choose O) (hb : b.length = D.choose (D - O)) (hb' : b'.length = D.choose O) :
    ∃ r, hodge D O a b = some r ∧ hodge D (D - O) r b' = some (a.map ((-1) ^ (O * (D - O)) * ·)) := by
  obtain ⟨Ca, Cb, r, hCa, hCb, hr, hrl, hrk⟩ := C48_hodgex D O hO a b ha hb
  obtain ⟨r0, hr0, hh⟩ := C48_hodge D O hO a b ha hb
  rw [hr] at hr0
  simp only [Option.some.injEq] at hr0
  subst hr0
  obtain ⟨Cb', Ca', r', hCb', hCa', hr', hrl', hrk'⟩ := C48_hodgex D (D - O) (by omega) r b' hrl (by rw [Nat.sub_sub_self hO, hb'])
  obtain ⟨r1, hr1, hh'⟩ := C48_hodge D (D - O) (by omega) r b' hrl (by rw [Nat.sub_sub_self hO, hb'])
  rw [hr'] at hr1
  simp only [Option.some.injEq] at hr1
  subst hr1
  rw [Nat.sub_sub_self hO] at hCa' hrl'
  rw [hCa] at hCa'; rw [hCb] at hCb'
  simp only [Option.some.injEq] at hCa' hCb'
  subst hCa' hCb'
  obtain ⟨C, hC, hba, hla⟩ := C45_choose D O hO
  rw [hCa] at hC
  simp only [Option.some.injEq] at hC
  subst hC
  obtain ⟨C, hC, hbb, hlb⟩ := C45_choose D (D - O) (by omega)
  rw [hCb] at hC
  simp only [Option.some.injEq] at hC
  subst hC
  refine ⟨r, hh, ?_⟩
  rw [hh']
  congr 1
  apply List.ext_getElem (by simp; omega)
  intro i h1 h2
  have hi : i < Ca.length := by omega
  have hAi : Ca[i]? = some (Ca.getD i []) := getElem?_getD hi
  have hA := (isBasis_iff.mp hba).1 _ (List.mem_of_getElem? hAi)
  have hcl := length_complement hA.1
  obtain ⟨k, B, hk, hp, -⟩ := (isBasis_iff.mp hbb).2 (complement (Ca.getD i []) D) complement_below (by omega)
  have hBl := ((isBasis_iff.mp hbb).1 _ (List.mem_of_getElem? hk)).2
  have hcomp : Compl D (Ca.getD i []) B := (compl_iff hA.1).mpr hp
  have hcomp' : Compl D B (Ca.getD i []) := List.perm_append_comm.trans hcomp
  have e1 := hrk i k _ _ hAi hk _ (isSign_of_perm hcomp)
  have e2 := hrk' k i _ _ hk hAi _ (isSign_of_perm hcomp')
  have e3 : permsign (B ++ Ca.getD i []) (List.range D) = (-1) ^ (O * (D - O)) * permsign (Ca.getD i [] ++ B) (List.range D) := by
    rw [permsign_trans (B := Ca.getD i [] ++ B) List.perm_append_comm List.nodup_range,
      permsign_rotate _ _ (hcomp'.nodup_iff.mpr List.nodup_range), hA.2, hBl, Nat.mul_comm]
  have := congrArg (Int.cast : Int → R) (permsign_sq List.nodup_range hcomp)
  push_cast at this
  rw [e1, e3] at e2
  push_cast at e2
  have e4 : r'.getD i 0 = (-1) ^ (O * (D - O)) * a.getD i 0 := by
    rw [e2]
    calc _ = (-1) ^ (O * (D - O)) * a.getD i 0 *
          ((permsign (Ca.getD i [] ++ B) (List.range D) : R) * (permsign (Ca.getD i [] ++ B) (List.range D) : R)) := by ring
      _ = _ := by rw [this]; ring
  have hil : i < a.length := by omega
  simpa [List.getD, h1, hil] using e4

/-- The star of 2-forms in 4 dimensions, which isn't a copy, and of 1-forms in 3 dimensions, which is. -/
example : (2 : Nat) ≤ 4 ∧ hodgeTrivial 4 2 = false ∧ hodgeTrivial 3 1 = true ∧ hodgeTrivial 4 3 = false := by decide
example : hodge 4 2 [(1 : Int), 2, 3, 4, 5, 6] [0, 0, 0, 0, 0, 0] = some [6, -5, 4, 3, -2, 1] := by decide +kernel
example : hodge 4 3 [(1 : Int), 2, 3, 4] [0, 0, 0, 0] = some [-1, -2, -3, -4] := by decide +kernel

end Ra.Props
