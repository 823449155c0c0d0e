import Verif.Model.Wedge
import Verif.Props.Combs
import Verif.Props.Binom
import Mathlib.LinearAlgebra.ExteriorAlgebra.Basis
import Mathlib.LinearAlgebra.Finsupp.VectorSpace
import Mathlib.Algebra.BigOperators.Ring.Finset
import Mathlib.Tactic.Ring
/-!
# Wedge product and Hodge star: C47, C48
-/
set_option linter.unusedSectionVars false

namespace Ra.Spec
open ExteriorAlgebra

variable {R : Type} [CommRing R]

/-- `e_i ∧ e_j ∧ ...` in the exterior algebra, where `e_0, e_1, ...` is the standard basis. -/
noncomputable def mono (R : Type) [CommRing R] (l : List Nat) : ExteriorAlgebra R (Nat →₀ R) :=
  (l.map fun i => ι R (Finsupp.single i (1 : R))).prod

/-- The form with components `a` in the basis `C`. -/
noncomputable def form (C : List (List Nat)) (a : List R) : ExteriorAlgebra R (Nat →₀ R) :=
  ∑ i ∈ Finset.range C.length, a.getD i 0 • mono R (C.getD i [])

end Ra.Spec

namespace Ra.Props
open Spec ExteriorAlgebra

variable {R : Type} [CommRing R]

/-! ## The exterior algebra -/

theorem mono_append (l l' : List Nat) : mono R (l ++ l') = mono R l * mono R l' := by simp [mono]

theorem mono_ofFn {n : Nat} (f : Fin n → Nat) : mono R (List.ofFn f) = ιMulti R n (fun i => Finsupp.single (f i) (1 : R)) := by
  rw [ιMulti_apply, mono, List.map_ofFn]
  rfl

theorem mono_perm {l l' : List Nat} (h : l'.Nodup) (hp : l.Perm l') : mono R l = (permsign l l' : R) • mono R l' := by
  obtain ⟨n, σ, f, h1, h2, h3⟩ := (C46_sign_exists l l' h hp).1
  rw [h3, h1, h2, mono_ofFn, mono_ofFn]
  have := AlternatingMap.map_perm (ιMulti R n) (fun i => Finsupp.single (f i) (1 : R)) σ
  have e : (fun i => Finsupp.single ((f ∘ σ) i) (1 : R)) = (fun i => Finsupp.single (f i) (1 : R)) ∘ σ := rfl
  rw [e, this]
  rcases Int.units_eq_one_or (Equiv.Perm.sign σ) with e | e <;> simp [e]

theorem mono_repeat {l : List Nat} (h : ¬ l.Nodup) : mono R l = 0 := by
  rw [← List.ofFn_get l, mono_ofFn]
  apply ιMulti_eq_zero_of_not_inj
  intro hi
  apply h
  rw [← List.ofFn_get l]
  refine List.nodup_ofFn.mpr fun a b hab => hi ?_
  simp only [hab]

/-! ## Sums -/

theorem getD_of_getElem? {β : Type} {L : List β} {k : Nat} {A d : β} (h : L[k]? = some A) : L.getD k d = A := by
  simp [List.getD, h]

theorem lt_of_getElem? {β : Type} {L : List β} {k : Nat} {A : β} (h : L[k]? = some A) : k < L.length := by
  by_contra hlt
  rw [List.getElem?_eq_none (by omega)] at h
  simp at h

theorem getElem?_getD {β : Type} {L : List β} {k : Nat} {d : β} (h : k < L.length) : L[k]? = some (L.getD k d) := by
  simp [List.getD, h]

/-- In a basis only one element counts. -/
theorem basis_sum {D O : Nat} {L : List (List Nat)} (hb : IsBasis D O L) {P : List Nat} (hP : Below D P) (hl : P.length = O) :
    ∃ (k : Nat) (A : List Nat), L[k]? = some A ∧ P.Perm A ∧ findWhere P L = k ∧ findSign P L = permsign P A ∧
      ∀ {M : Type} [AddCommMonoid M] (g : Int → Nat → M), (∀ i, g 0 i = 0) →
        ∑ i ∈ Finset.range L.length, g (permsign P (L.getD i [])) i = g (permsign P A) k := by
  obtain ⟨k, A, hk, hp, hu⟩ := (isBasis_iff.mp hb).2 P hP hl
  obtain ⟨h1, h2⟩ := C46_findcomb P L k A hk hp hu
  refine ⟨k, A, hk, hp, h1, h2, ?_⟩
  intro M _ g hg
  rw [Finset.sum_eq_single k]
  · rw [getD_of_getElem? hk]
  · intro i hi hik
    have hi : i < L.length := by simpa using hi
    have : ¬ P.Perm (L.getD i []) := fun q => hik (hu i _ (getElem?_getD hi) q)
    rw [(C46_zero _ _).mpr this, hg]
  · intro h
    exact absurd (lt_of_getElem? hk) (by simpa using h)

theorem Below.sublist {D : Nat} {C C' : List Nat} (h : Below D C) (p : C'.Sublist C) : Below D C' :=
  ⟨h.1.sublist p, fun x hx => h.2 x (p.subset hx)⟩

/-- A sublist and what is left. -/
theorem sublist_complement {F X : List Nat} (hX : X.Nodup) (h : F.Sublist X) : (F ++ complementList F X F).Perm X := by
  rw [C46_complement_list]
  have hF : F.Perm (X.filter (fun x => decide (x ∈ F))) := by
    rw [List.perm_ext_iff_of_nodup (hX.sublist h) (hX.filter _)]
    intro x
    simp
    exact fun hx => h.subset hx
  refine (hF.append_right _).trans ?_
  have := List.filter_append_perm (fun x => decide (x ∈ F)) X
  simpa using this

theorem length_sublist_complement {F X : List Nat} (hX : X.Nodup) (h : F.Sublist X) : F.length + (complementList F X F).length = X.length := by
  simpa using (sublist_complement hX h).length_eq

/-- The sum over the ways to split `X`. -/
theorem split_sum {X A B : List Nat} (hX : X.Nodup) (n : Nat) (hn : n ≤ X.length) (hA : A.length = n) :
    ∃ L, combs X n = some L ∧
      (L.map fun F => permsign F A * permsign (complementList F X F) B * permsign (F ++ complementList F X F) X).sum = permsign (A ++ B) X := by
  obtain ⟨L, hL, hm, -, hnd, -⟩ := C45_combs X n hn
  have hnd := hnd hX
  refine ⟨L, hL, ?_⟩
  by_cases hp : (A ++ B).Perm X
  · -- the only sublist that counts
    have hAB : (A ++ B).Nodup := hp.nodup_iff.mpr hX
    rw [List.nodup_append] at hAB
    obtain ⟨hAn, hBn, hAB⟩ := hAB
    let F := X.filter (fun x => decide (x ∈ A))
    have hFs : F.Sublist X := List.filter_sublist
    have hFA : F.Perm A := by
      rw [List.perm_ext_iff_of_nodup (hX.filter _) hAn]
      intro x
      simp only [List.mem_filter, decide_eq_true_eq, and_iff_right_iff_imp]
      intro hx
      exact hp.mem_iff.mp (by simp [hx])
    have hGB : (complementList F X F).Perm B := by
      rw [C46_complement_list, List.perm_ext_iff_of_nodup (hX.filter _) hBn]
      intro x
      simp only [List.mem_filter, decide_eq_true_eq, hFA.mem_iff]
      constructor
      · rintro ⟨h1, h2⟩
        have := hp.mem_iff.mpr h1
        simp only [List.mem_append] at this
        tauto
      · intro hx
        refine ⟨hp.mem_iff.mp (by simp [hx]), fun hxA => hAB x hxA x hx rfl⟩
    have hFL : F ∈ L := (hm F).mpr ⟨hFs, by rw [hFA.length_eq, hA]⟩
    have hz : ∀ F' ∈ L, F' ≠ F →
        permsign F' A * permsign (complementList F' X F') B * permsign (F' ++ complementList F' X F') X = 0 := by
      intro F' hF' hne
      have hF's := ((hm F').mp hF').1
      have : ¬ F'.Perm A := by
        intro q
        apply hne
        have e1 : F' = X.filter (fun x => decide (x ∈ F')) := by
          symm
          refine (List.Sublist.eq_of_length ?_ ?_)
          · have : (X.filter (fun x => decide (x ∈ F'))).Perm F' := by
              rw [List.perm_ext_iff_of_nodup (hX.filter _) (hX.sublist hF's)]
              intro x
              simp
              exact fun hx => hF's.subset hx
            have hsub : (F'.filter (fun x => decide (x ∈ F'))).Sublist (X.filter (fun x => decide (x ∈ F'))) := hF's.filter _
            have e : F'.filter (fun x => decide (x ∈ F')) = F' := by simp
            rw [e] at hsub
            rw [← hsub.eq_of_length this.length_eq.symm]
          · have : (X.filter (fun x => decide (x ∈ F'))).Perm F' := by
              rw [List.perm_ext_iff_of_nodup (hX.filter _) (hX.sublist hF's)]
              intro x
              simp
              exact fun hx => hF's.subset hx
            exact this.length_eq
        rw [e1]
        simp only [F, q.mem_iff]
      rw [(C46_zero _ _).mpr this]
      ring
    have hsum : (L.map fun F => permsign F A * permsign (complementList F X F) B * permsign (F ++ complementList F X F) X).sum =
        permsign F A * permsign (complementList F X F) B * permsign (F ++ complementList F X F) X := by
      rw [← List.sum_toFinset _ hnd, Finset.sum_eq_single F]
      · intro F' hF' hne
        exact hz F' (by simpa using hF') hne
      · intro h
        exact absurd (by simpa using hFL) h
    rw [hsum]
    have hFG : (F ++ complementList F X F).Perm X := sublist_complement hX hFs
    have hFGn : (F ++ complementList F X F).Nodup := hFG.nodup_iff.mpr hX
    have h1 : permsign (A ++ B) (F ++ complementList F X F) = permsign F A * permsign (complementList F X F) B := by
      rw [permsign_symm hFGn]
      have hAGn : (A ++ B).Nodup := hp.nodup_iff.mpr hX
      rw [permsign_trans (hGB.append_left F) hAGn, permsign_append_same]
      -- the prefix
      have h2 : permsign (F ++ B) (A ++ B) = permsign F A := by
        obtain ⟨r, hr⟩ : ∃ r, r = permsign (F ++ B) (A ++ B) := ⟨_, rfl⟩
        have hFBn : (F ++ B).Nodup := ((hFA.append_right B).nodup_iff).mpr hAGn
        have hBAn : (B ++ A).Nodup := (List.perm_append_comm (l₁ := A) (l₂ := B)).nodup_iff.mp hAGn
        have hBFn : (B ++ F).Nodup := (List.perm_append_comm (l₁ := F) (l₂ := B)).nodup_iff.mp hFBn
        have e1 := permsign_trans (A := F ++ B) (B := B ++ F) (C := A ++ B) List.perm_append_comm hAGn
        have e2 := permsign_trans (A := B ++ F) (B := B ++ A) (C := A ++ B) (hFA.append_left B) hAGn
        rw [permsign_append_same] at e2
        rw [e1, e2, permsign_rotate F B hFBn, permsign_rotate B A hBAn, hFA.length_eq]
        have : (-1 : Int) ^ (A.length * B.length) * (-1) ^ (B.length * A.length) = 1 := by
          rw [Nat.mul_comm B.length, ← pow_add]
          exact Even.neg_one_pow ⟨_, rfl⟩
        calc _ = permsign F A * ((-1 : Int) ^ (A.length * B.length) * (-1) ^ (B.length * A.length)) := by ring
          _ = _ := by rw [this]; ring
      rw [h2]; ring
    rw [← h1, ← permsign_trans (hp.trans hFG.symm) hX]
  · rw [(C46_zero _ _).mpr hp]
    apply List.sum_eq_zero
    intro x hx
    simp only [List.mem_map] at hx
    obtain ⟨F, hF, rfl⟩ := hx
    by_contra hne
    have h1 : permsign F A ≠ 0 := by intro e; simp [e] at hne
    have h2 : permsign (complementList F X F) B ≠ 0 := by intro e; simp [e] at hne
    rw [permsign_ne_zero] at h1 h2
    exact hp ((h1.append h2).symm.trans (sublist_complement hX ((hm F).mp hF).1))


theorem sum_swap {β : Type} (L : List β) (h : β → Nat → Nat → Int) (a b : Nat → R) (m n : Nat) :
    (L.map fun F => ∑ i ∈ Finset.range m, ∑ j ∈ Finset.range n, ((h F i j : Int) : R) * a i * b j).sum =
      ∑ i ∈ Finset.range m, ∑ j ∈ Finset.range n, (((L.map fun F => h F i j).sum : Int) : R) * a i * b j := by
  induction L with
  | nil => simp
  | cons F L ih =>
    simp only [List.map_cons, List.sum_cons, ih, ← Finset.sum_add_distrib]
    refine Finset.sum_congr rfl fun i _ => Finset.sum_congr rfl fun j _ => ?_
    push_cast
    ring

theorem component_ok {a : List R} {k : Nat} (h : k < a.length) : component a (k : Int) = some (a.getD k 0) := by
  simp [component, List.getD, h]

theorem term_eq {D Oa Ob : Nat} {Ca Cb : List (List Nat)} (ha : IsBasis D Oa Ca) (hb : IsBasis D Ob Cb) {X : List Nat} (hX : Below D X)
    (hXl : X.length = Oa + Ob) {a b : List R} (hal : a.length = Ca.length) (hbl : b.length = Cb.length) :
    ∀ Fs : List (List Nat), (∀ F ∈ Fs, F.Sublist X ∧ F.length = Oa) →
    wedgeTerm Ca Cb X a b Fs = some (Fs.map fun F => ∑ i ∈ Finset.range Ca.length, ∑ j ∈ Finset.range Cb.length,
      ((permsign F (Ca.getD i []) * permsign (complementList F X F) (Cb.getD j []) * permsign (F ++ complementList F X F) X : Int) : R) *
        a.getD i 0 * b.getD j 0).sum := by
  intro Fs
  induction Fs with
  | nil => intro _; rfl
  | cons F Fs ih =>
    intro h
    have hF := h F (by simp)
    have hG : (complementList F X F).Sublist X := by rw [C46_complement_list]; exact List.filter_sublist
    have hGl := length_sublist_complement hX.1 hF.1
    obtain ⟨k, A, hk, hkp, hw, hs, hsum⟩ := basis_sum ha (hX.sublist hF.1) hF.2
    obtain ⟨l, B, hl, hlp, hw', hs', hsum'⟩ := basis_sum hb (hX.sublist hG) (by omega)
    have hAn : A.Nodup := hkp.nodup_iff.mp (hX.sublist hF.1).1
    have hBn : B.Nodup := hlp.nodup_iff.mp (hX.sublist hG).1
    have hsg : findSign F Ca * findSign (complementList F X F) Cb * permsign (F ++ complementList F X F) X = 1 ∨
        findSign F Ca * findSign (complementList F X F) Cb * permsign (F ++ complementList F X F) X = -1 := by
      rw [hs, hs']
      rcases (C46_sign_exists F A hAn hkp).2 with e | e <;> rcases (C46_sign_exists _ B hBn hlp).2 with e' | e' <;>
        rcases (C46_sign_exists _ X hX.1 (sublist_complement hX.1 hF.1)).2 with e'' | e'' <;> simp [e, e', e'']
    rw [wedgeTerm]
    simp only [hsg, if_true, hw, hw', ih fun F' h' => h F' (by simp [h'])]
    rw [component_ok (by rw [hal]; exact lt_of_getElem? hk), component_ok (by rw [hbl]; exact lt_of_getElem? hl)]
    simp only [Option.bind_eq_bind, Option.bind_some, Option.pure_def, Option.some.injEq, List.map_cons, List.sum_cons]
    congr 1
    have e1 (i : Nat) : ∑ j ∈ Finset.range Cb.length,
        ((permsign F (Ca.getD i []) * permsign (complementList F X F) (Cb.getD j []) * permsign (F ++ complementList F X F) X : Int) : R) *
          a.getD i 0 * b.getD j 0 =
        ((permsign F (Ca.getD i []) * permsign (complementList F X F) B * permsign (F ++ complementList F X F) X : Int) : R) *
          a.getD i 0 * b.getD l 0 :=
      hsum' (fun s j => ((permsign F (Ca.getD i []) * s * permsign (F ++ complementList F X F) X : Int) : R) * a.getD i 0 * b.getD j 0)
        (fun j => by simp)
    simp only [e1]
    have e2 := hsum (fun s i => ((s * permsign (complementList F X F) B * permsign (F ++ complementList F X F) X : Int) : R) *
      a.getD i 0 * b.getD l 0) (fun j => by simp)
    rw [e2, hs, hs']

/-- The components of the product, in any basis. -/
theorem wedge_components (D Oa Ob : Nat) (h : Oa + Ob ≤ D) (a b : List R) (ha : a.length = D.choose Oa) (hb : b.length = D.choose Ob) :
    ∃ Ca Cb Cr r, choose D Oa = some Ca ∧ choose D Ob = some Cb ∧ choose D (Oa + Ob) = some Cr ∧
      IsBasis D Oa Ca ∧ IsBasis D Ob Cb ∧ IsBasis D (Oa + Ob) Cr ∧ a.length = Ca.length ∧ b.length = Cb.length ∧
      wedge D Oa Ob a b = some r ∧ r = Cr.map fun X => ∑ i ∈ Finset.range Ca.length, ∑ j ∈ Finset.range Cb.length,
        (permsign (Ca.getD i [] ++ Cb.getD j []) X : R) * a.getD i 0 * b.getD j 0 := by
  obtain ⟨Ca, hCa, hba, hla⟩ := C45_choose D Oa (by omega)
  obtain ⟨Cb, hCb, hbb, hlb⟩ := C45_choose D Ob (by omega)
  obtain ⟨Cr, hCr, hbr, hlr⟩ := C45_choose D (Oa + Ob) h
  refine ⟨Ca, Cb, Cr, _, hCa, hCb, hCr, hba, hbb, hbr, by omega, by omega, ?_, rfl⟩
  rw [wedge, if_pos ⟨by omega, by omega, h⟩, hCa, hCb, hCr]
  simp only [Option.bind_eq_bind, Option.bind_some, C44_binom, ha, hb, hlr, and_self, if_true]
  have key : ∀ L : List (List Nat), (∀ X ∈ L, Below D X ∧ X.length = Oa + Ob) →
      L.mapM (fun X => (combs X Oa).bind fun Fa => wedgeTerm Ca Cb X a b Fa) =
        some (L.map fun X => ∑ i ∈ Finset.range Ca.length, ∑ j ∈ Finset.range Cb.length,
          (permsign (Ca.getD i [] ++ Cb.getD j []) X : R) * a.getD i 0 * b.getD j 0) := by
    intro L
    induction L with
    | nil => intro _; rfl
    | cons X L ih =>
      intro hL
      obtain ⟨hX, hXl⟩ := hL X (by simp)
      obtain ⟨Fs, hFs, hm, -⟩ := C45_combs X Oa (by omega)
      rw [List.mapM_cons, hFs]
      simp only [Option.bind_eq_bind, Option.bind_some]
      rw [term_eq hba hbb hX hXl (by omega) (by omega) Fs fun F hF => (hm F).mp hF, ih fun Y hY => hL Y (by simp [hY]), sum_swap]
      simp only [Option.bind_some, Option.pure_def, List.map_cons]
      congr 2
      refine Finset.sum_congr rfl fun i hi => Finset.sum_congr rfl fun j _ => ?_
      have hi : i < Ca.length := by simpa using hi
      obtain ⟨Fs', hFs', hs⟩ := split_sum (X := X) (A := Ca.getD i []) (B := Cb.getD j []) hX.1 Oa (by omega)
        ((isBasis_iff.mp hba).1 _ (List.mem_of_getElem? (getElem?_getD hi))).2
      rw [hFs] at hFs'
      simp only [Option.some.injEq] at hFs'
      subst hFs'
      rw [hs]
  exact key Cr fun X hX => (isBasis_iff.mp hbr).1 X hX

/-- A product of basis vectors in a basis. -/
theorem mono_basis {D O : Nat} {C : List (List Nat)} (hC : IsBasis D O C) {P : List Nat} (hP : ∀ x ∈ P, x < D) (hl : P.length = O) :
    ∑ k ∈ Finset.range C.length, (permsign P (C.getD k []) : R) • mono R (C.getD k []) = mono R P := by
  by_cases hn : P.Nodup
  · obtain ⟨k, A, hk, hkp, -, -, hsum⟩ := basis_sum hC ⟨hn, hP⟩ hl
    have e := hsum (fun s i => (s : R) • mono R (C.getD i [])) (by simp)
    rw [e, getD_of_getElem? hk, mono_perm (hkp.nodup_iff.mp hn) hkp]
  · rw [mono_repeat hn]
    apply Finset.sum_eq_zero
    intro k hk
    have hk : k < C.length := by simpa using hk
    have : ¬ P.Perm (C.getD k []) := fun q =>
      hn (q.nodup_iff.mpr ((isBasis_iff.mp hC).1 _ (List.mem_of_getElem? (getElem?_getD hk))).1.1)
    rw [(C46_zero _ _).mpr this]
    simp

/-- C47. `wedge<D, Oa, Ob>(a, b)` is made without errors for any orders, and it is the product in the exterior algebra: the form whose
components are `wedge(a, b)` is the product of the forms with components `a` and `b`. -/
theorem C47_wedge (D Oa Ob : Nat) (h : Oa + Ob ≤ D) (a b : List R) (ha : a.length = D.choose Oa) (hb : b.length = D.choose Ob) :
    ∃ Ca Cb Cr r, choose D Oa = some Ca ∧ choose D Ob = some Cb ∧ choose D (Oa + Ob) = some Cr ∧
      wedge D Oa Ob a b = some r ∧ r.length = D.choose (Oa + Ob) ∧ form Cr r = form Ca a * form Cb b := by
  obtain ⟨Ca, Cb, Cr, r, hCa, hCb, hCr, hba, hbb, hbr, hal, hbl, hw, hr⟩ := wedge_components D Oa Ob h a b ha hb
  have hlr : Cr.length = D.choose (Oa + Ob) := by
    obtain ⟨Cr', hCr', -, hl⟩ := C45_choose D (Oa + Ob) h
    rw [hCr] at hCr'
    simp only [Option.some.injEq] at hCr'
    rw [hCr', hl]
  refine ⟨Ca, Cb, Cr, r, hCa, hCb, hCr, hw, by simp [hr, hlr], ?_⟩
  have e1 : form Cr r = ∑ k ∈ Finset.range Cr.length, ∑ i ∈ Finset.range Ca.length, ∑ j ∈ Finset.range Cb.length,
      (a.getD i 0 * b.getD j 0) • ((permsign (Ca.getD i [] ++ Cb.getD j []) (Cr.getD k []) : R) • mono R (Cr.getD k [])) := by
    unfold form
    refine Finset.sum_congr rfl fun k hk => ?_
    have hk : k < Cr.length := by simpa using hk
    have : r.getD k 0 = ∑ i ∈ Finset.range Ca.length, ∑ j ∈ Finset.range Cb.length,
        (permsign (Ca.getD i [] ++ Cb.getD j []) (Cr.getD k []) : R) * a.getD i 0 * b.getD j 0 := by
      rw [hr]
      simp [List.getD, hk]
    rw [this, Finset.sum_smul]
    refine Finset.sum_congr rfl fun i _ => ?_
    rw [Finset.sum_smul]
    refine Finset.sum_congr rfl fun j _ => ?_
    rw [smul_smul]
    congr 1
    ring
  rw [e1, Finset.sum_comm]
  unfold form
  rw [Finset.sum_mul_sum]
  refine Finset.sum_congr rfl fun i hi => ?_
  rw [Finset.sum_comm]
  refine Finset.sum_congr rfl fun j hj => ?_
  have hi : i < Ca.length := by simpa using hi
  have hj : j < Cb.length := by simpa using hj
  have hA := (isBasis_iff.mp hba).1 _ (List.mem_of_getElem? (getElem?_getD (d := []) hi))
  have hB := (isBasis_iff.mp hbb).1 _ (List.mem_of_getElem? (getElem?_getD (d := []) hj))
  rw [← Finset.smul_sum, mono_basis hbr (by
    intro x hx
    rw [List.mem_append] at hx
    exact hx.elim (hA.1.2 x) (hB.1.2 x)) (by rw [List.length_append, hA.2, hB.2]), mono_append]
  rw [smul_mul_smul_comm]

/-! ## Components are unique -/

theorem exists_mono_eq (s : Finset Nat) : ∃ l : List Nat, l.Nodup ∧ l.toFinset = s ∧
    (Finsupp.basisSingleOne (R := R) (ι := Nat)).ExteriorAlgebra s = mono R l := by
  refine ⟨List.ofFn (s.orderEmbOfFin rfl), ?_, ?_, ?_⟩
  · exact List.nodup_ofFn.mpr (s.orderEmbOfFin rfl).injective
  · ext x
    simp only [List.mem_toFinset, List.mem_ofFn]
    constructor
    · rintro ⟨i, rfl⟩
      exact Finset.orderEmbOfFin_mem s rfl i
    · intro hx
      have : x ∈ Set.range (s.orderEmbOfFin rfl) := by rw [Finset.range_orderEmbOfFin]; exact hx
      exact this
  · rw [basis_apply_ofCard (s_card := rfl), mono_ofFn]
    unfold ιMulti_family
    congr 1

theorem coord_mono {l : List Nat} (hl : l.Nodup) (s : Finset Nat) : ∃ u : R, u * u = 1 ∧
    (Finsupp.basisSingleOne (R := R) (ι := Nat)).ExteriorAlgebra.repr (mono R l) s = if l.toFinset = s then u else 0 := by
  obtain ⟨l', hl', hs, he⟩ := exists_mono_eq (R := R) l.toFinset
  have hp : l.Perm l' := List.perm_of_nodup_nodup_toFinset_eq hl hl' hs.symm
  refine ⟨(permsign l l' : R), ?_, ?_⟩
  · have := permsign_sq hl' hp
    have := congrArg (Int.cast : Int → R) this
    simpa using this
  · rw [mono_perm hl' hp, ← he]
    simp only [map_smul, Module.Basis.repr_self, Finsupp.smul_apply, smul_eq_mul, Finsupp.single_apply]
    split <;> simp

/-- C47. The components of a form in the basis `choose<D, O>` are unique, so that the theorem before this one determines the product. -/
theorem C47_components_unique (D O : Nat) (h : O ≤ D) : ∃ C, choose D O = some C ∧
    ∀ a a' : List R, a.length = D.choose O → a'.length = D.choose O → form C a = form C a' → a = a' := by
  obtain ⟨C, hC, hb, hl⟩ := C45_choose D O h
  refine ⟨C, hC, ?_⟩
  intro a a' ha ha' he
  have hb' := isBasis_iff.mp hb
  -- coordinate at the set of element i
  have key (x : List R) (i : Nat) (hi : i < C.length) : ∃ u : R, u * u = 1 ∧
      (Finsupp.basisSingleOne (R := R) (ι := Nat)).ExteriorAlgebra.repr (mono R (C.getD i [])) (C.getD i []).toFinset = u ∧
      (Finsupp.basisSingleOne (R := R) (ι := Nat)).ExteriorAlgebra.repr (form C x) (C.getD i []).toFinset = x.getD i 0 * u := by
    have hmi := hb'.1 _ (List.mem_of_getElem? (getElem?_getD (d := []) hi))
    obtain ⟨u, hu, hc⟩ := coord_mono (R := R) hmi.1.1 (C.getD i []).toFinset
    rw [if_pos rfl] at hc
    refine ⟨u, hu, hc, ?_⟩
    unfold form
    rw [map_sum, Finsupp.finsetSum_apply, Finset.sum_eq_single i]
    · simp only [map_smul, Finsupp.smul_apply, smul_eq_mul, hc]
    · intro j hj hji
      have hj : j < C.length := by simpa using hj
      have hmj := hb'.1 _ (List.mem_of_getElem? (getElem?_getD (d := []) hj))
      obtain ⟨u', -, hc'⟩ := coord_mono (R := R) hmj.1.1 (C.getD i []).toFinset
      rw [if_neg] at hc'
      · simp only [map_smul, Finsupp.smul_apply, smul_eq_mul, hc', mul_zero]
      · intro heq
        obtain ⟨k, A, hk, hp, hu⟩ := hb'.2 (C.getD i []) hmi.1 hmi.2
        have e1 := hu i _ (getElem?_getD hi) (List.Perm.refl _)
        have e2 := hu j _ (getElem?_getD hj) (List.perm_of_nodup_nodup_toFinset_eq hmi.1.1 hmj.1.1 heq.symm)
        omega
    · intro hn
      exact absurd hi (by simpa using hn)
  apply List.ext_getElem (by omega)
  intro i h1 h2
  obtain ⟨u, hu, hc, hx⟩ := key a i (by omega)
  obtain ⟨u', -, hc', hx'⟩ := key a' i (by omega)
  rw [hc] at hc'
  subst hc'
  rw [he, hx'] at hx
  have h3 : a'.getD i 0 * (u * u) = a.getD i 0 * (u * u) := by rw [← mul_assoc, hx, mul_assoc]
  rw [hu, mul_one, mul_one] at h3
  simp only [List.getD, h1, h2, List.getElem?_eq_getElem, Option.getD_some] at h3
  exact h3.symm

/-! ## Consequences -/

/-- C47. On basis forms: if the sets of indices overlap the product is 0, else it has a single nonzero component, at their union,
and it is the sign of the permutation from one index list after the other to the index list of that component. -/
theorem C47_basis (D Oa Ob : Nat) (h : Oa + Ob ≤ D) (i j : Nat) (hi : i < D.choose Oa) (hj : j < D.choose Ob) :
    ∃ Ca Cb Cr A B, choose D Oa = some Ca ∧ choose D Ob = some Cb ∧ choose D (Oa + Ob) = some Cr ∧ Ca[i]? = some A ∧ Cb[j]? = some B ∧
      ∃ r, wedge D Oa Ob (List.ofFn fun k : Fin (D.choose Oa) => if (k : Nat) = i then (1 : R) else 0)
        (List.ofFn fun k : Fin (D.choose Ob) => if (k : Nat) = j then (1 : R) else 0) = some r ∧
      ∀ (k : Nat) (X : List Nat), Cr[k]? = some X → (¬ (A ++ B).Perm X → r[k]? = some 0) ∧ (∀ s, IsSign (A ++ B) X s → r[k]? = some (s : R)) := by
  obtain ⟨Ca, Cb, Cr, r, hCa, hCb, hCr, hba, hbb, hbr, hal, hbl, hw, hr⟩ := wedge_components (R := R) D Oa Ob h
    (List.ofFn fun k : Fin (D.choose Oa) => if (k : Nat) = i then (1 : R) else 0)
    (List.ofFn fun k : Fin (D.choose Ob) => if (k : Nat) = j then (1 : R) else 0) (by simp) (by simp)
  simp only [List.length_ofFn] at hal hbl
  refine ⟨Ca, Cb, Cr, Ca.getD i [], Cb.getD j [], hCa, hCb, hCr, getElem?_getD (by omega), getElem?_getD (by omega), r, hw, ?_⟩
  intro k X hk
  have key : r[k]? = some (permsign (Ca.getD i [] ++ Cb.getD j []) X : R) := by
    rw [hr, List.getElem?_map, hk]
    simp only [Option.map_some, Option.some.injEq]
    rw [Finset.sum_eq_single i, Finset.sum_eq_single j]
    · simp [List.getD, hi, hj]
    · intro j' _ hne
      by_cases hlt : j' < D.choose Ob <;> simp [List.getD, hlt, hne]
    · intro hn; exact absurd (by simpa using (by omega : j < Cb.length)) hn
    · intro i' _ hne
      apply Finset.sum_eq_zero
      intro j' _
      by_cases hlt : i' < D.choose Oa <;> simp [List.getD, hlt, hne]
    · intro hn; exact absurd (by simpa using (by omega : i < Ca.length)) hn
  refine ⟨fun hn => ?_, fun s hs => ?_⟩
  · rw [key, (C46_zero _ _).mpr hn]; simp
  · rw [key, C46_permsign _ _ ((isBasis_iff.mp hbr).1 X (List.mem_of_getElem? hk)).1.1 s hs]

/-- C47. The product is linear in the first argument. -/
theorem C47_linear_left (D Oa Ob : Nat) (h : Oa + Ob ≤ D) (x : R) (a a' b : List R) (ha : a.length = D.choose Oa) (ha' : a'.length = D.choose Oa)
    (hb : b.length = D.choose Ob) : ∃ r r', wedge D Oa Ob a b = some r ∧ wedge D Oa Ob a' b = some r' ∧
      wedge D Oa Ob (List.zipWith (fun u v => x * u + v) a a') b = some (List.zipWith (fun u v => x * u + v) r r') := by
  obtain ⟨Ca, Cb, Cr, r, hCa, hCb, hCr, -, -, -, hal, hbl, hw, hr⟩ := wedge_components D Oa Ob h a b ha hb
  obtain ⟨Ca', Cb', Cr', r', hCa', hCb', hCr', -, -, -, hal', hbl', hw', hr'⟩ := wedge_components D Oa Ob h a' b ha' hb
  obtain ⟨Ca'', Cb'', Cr'', r'', hCa'', hCb'', hCr'', -, -, -, hal'', hbl'', hw'', hr''⟩ :=
    wedge_components D Oa Ob h (List.zipWith (fun u v => x * u + v) a a') b (by simp [ha, ha']) hb
  rw [hCa] at hCa' hCa''; rw [hCb] at hCb' hCb''; rw [hCr] at hCr' hCr''
  simp only [Option.some.injEq] at hCa' hCb' hCr' hCa'' hCb'' hCr''
  subst hCa' hCb' hCr' hCa'' hCb'' hCr''
  refine ⟨r, r', hw, hw', ?_⟩
  rw [hw'', hr, hr', hr'']
  congr 1
  apply List.ext_getElem (by simp)
  intro k h1 h2
  simp only [List.getElem_map, List.getElem_zipWith, Finset.mul_sum, ← Finset.sum_add_distrib]
  refine Finset.sum_congr rfl fun i hi => Finset.sum_congr rfl fun j _ => ?_
  have hi : i < Ca.length := by simpa using hi
  have : (List.zipWith (fun u v => x * u + v) a a').getD i 0 = x * a.getD i 0 + a'.getD i 0 := by
    have e1 : i < a.length := by omega
    have e2 : i < a'.length := by omega
    simp [List.getD, e1, e2]
  rw [this]
  ring

/-- C47. Graded anticommutative. -/
theorem C47_anticommutative (D Oa Ob : Nat) (h : Oa + Ob ≤ D) (a b : List R) (ha : a.length = D.choose Oa) (hb : b.length = D.choose Ob) :
    ∃ r, wedge D Oa Ob a b = some r ∧ wedge D Ob Oa b a = some (r.map ((-1) ^ (Oa * Ob) * ·)) := by
  obtain ⟨Ca, Cb, Cr, r, hCa, hCb, hCr, hba, hbb, hbr, hal, hbl, hw, hr⟩ := wedge_components D Oa Ob h a b ha hb
  obtain ⟨Cb', Ca', Cr', r', hCb', hCa', hCr', -, -, -, hbl', hal', hw', hr'⟩ := wedge_components D Ob Oa (by omega) b a hb ha
  rw [Nat.add_comm Ob Oa, hCr] at hCr'
  rw [hCa] at hCa'
  rw [hCb] at hCb'
  simp only [Option.some.injEq] at hCa' hCb' hCr'
  subst hCa' hCb' hCr'
  refine ⟨r, hw, ?_⟩
  rw [hw', hr, hr', List.map_map]
  congr 1
  apply List.map_congr_left
  intro X hX
  have hXn := ((isBasis_iff.mp hbr).1 X hX).1.1
  simp only [Function.comp]
  rw [Finset.mul_sum, Finset.sum_comm]
  refine Finset.sum_congr rfl fun i hi => ?_
  rw [Finset.mul_sum]
  refine Finset.sum_congr rfl fun j hj => ?_
  have hi : i < Ca.length := by simpa using hi
  have hj : j < Cb.length := by simpa using hj
  have hA := ((isBasis_iff.mp hba).1 _ (List.mem_of_getElem? (getElem?_getD (d := []) hi))).2
  have hB := ((isBasis_iff.mp hbb).1 _ (List.mem_of_getElem? (getElem?_getD (d := []) hj))).2
  have key : permsign (Cb.getD j [] ++ Ca.getD i []) X = (-1) ^ (Oa * Ob) * permsign (Ca.getD i [] ++ Cb.getD j []) X := by
    by_cases hp : (Ca.getD i [] ++ Cb.getD j []).Perm X
    · have hn : (Cb.getD j [] ++ Ca.getD i []).Nodup := (List.perm_append_comm.trans hp).nodup_iff.mpr hXn
      rw [permsign_trans (A := Cb.getD j [] ++ Ca.getD i []) (B := Ca.getD i [] ++ Cb.getD j []) List.perm_append_comm hXn,
        permsign_rotate _ _ hn, hA, hB, Nat.mul_comm]
    · rw [(C46_zero _ _).mpr hp, (C46_zero _ _).mpr fun q => hp (List.perm_append_comm.trans q)]
      ring
  rw [key]
  push_cast
  ring

/-- C47. The product is linear in the second argument. -/
theorem C47_linear_right (D Oa Ob : Nat) (h : Oa + Ob ≤ D) (x : R) (a b b' : List R) (ha : a.length = D.choose Oa) (hb : b.length = D.choose Ob)
    (hb' : b'.length = D.choose Ob) : ∃ r r', wedge D Oa Ob a b = some r ∧ wedge D Oa Ob a b' = some r' ∧
      wedge D Oa Ob a (List.zipWith (fun u v => x * u + v) b b') = some (List.zipWith (fun u v => x * u + v) r r') := by
  obtain ⟨r, r', h1, h2, h3⟩ := C47_linear_left D Ob Oa (by omega) x b b' a hb hb' ha
  obtain ⟨s1, e1, f1⟩ := C47_anticommutative D Ob Oa (by omega) b a hb ha
  obtain ⟨s2, e2, f2⟩ := C47_anticommutative D Ob Oa (by omega) b' a hb' ha
  obtain ⟨s3, e3, f3⟩ := C47_anticommutative D Ob Oa (by omega) (List.zipWith (fun u v => x * u + v) b b') a (by simp [hb, hb']) ha
  rw [h1] at e1; rw [h2] at e2; rw [h3] at e3
  simp only [Option.some.injEq] at e1 e2 e3
  subst e1 e2 e3
  refine ⟨_, _, f1, f2, ?_⟩
  rw [f3]
  congr 1
  apply List.ext_getElem (by simp)
  intro k _ _
  simp only [List.getElem_map, List.getElem_zipWith]
  ring

/-- C47. Associative. -/
theorem C47_associative (D Oa Ob Oc : Nat) (h : Oa + Ob + Oc ≤ D) (a b c : List R) (ha : a.length = D.choose Oa) (hb : b.length = D.choose Ob)
    (hc : c.length = D.choose Oc) : ∃ ab bc r, wedge D Oa Ob a b = some ab ∧ wedge D Ob Oc b c = some bc ∧
      wedge D (Oa + Ob) Oc ab c = some r ∧ wedge D Oa (Ob + Oc) a bc = some r := by
  obtain ⟨Ca, Cb, Cab, ab, hCa, hCb, hCab, hab, hlab, fab⟩ := C47_wedge D Oa Ob (by omega) a b ha hb
  obtain ⟨Cb', Cc, Cbc, bc, hCb', hCc, hCbc, hbc, hlbc, fbc⟩ := C47_wedge D Ob Oc (by omega) b c hb hc
  obtain ⟨Cab', Cc', Cr, r, hCab', hCc', hCr, hr, hlr, fr⟩ := C47_wedge D (Oa + Ob) Oc h ab c hlab hc
  obtain ⟨Ca', Cbc', Cr', r', hCa', hCbc', hCr', hr', hlr', fr'⟩ := C47_wedge D Oa (Ob + Oc) (by omega) a bc ha hlbc
  rw [← Nat.add_assoc] at hCr' hlr'
  rw [hCb] at hCb'; rw [hCab] at hCab'; rw [hCc] at hCc'; rw [hCa] at hCa'; rw [hCbc] at hCbc'; rw [hCr] at hCr'
  simp only [Option.some.injEq] at hCb' hCab' hCc' hCa' hCbc' hCr'
  subst hCb' hCab' hCc' hCa' hCbc' hCr'
  obtain ⟨C, hC, hu⟩ := C47_components_unique (R := R) D (Oa + Ob + Oc) h
  rw [hCr] at hC
  simp only [Option.some.injEq] at hC
  subst hC
  have : r = r' := hu r r' hlr hlr' (by rw [fr, fr', fab, fbc, mul_assoc])
  exact ⟨ab, bc, r, hab, hbc, hr, this ▸ hr'⟩

/-- C47. The product in 2 dimensions. -/
theorem C47_cross2 (a0 a1 b0 b1 : R) : cross [a0, a1] [b0, b1] = some [a0 * b1 - a1 * b0] := by
  have h1 : choose 2 1 = some [[0], [1]] := by decide +kernel
  have h2 : choose 2 2 = some [[0, 1]] := by decide +kernel
  have h3 : combs [0, 1] 1 = some [[0], [1]] := by decide +kernel
  have hb : binom 2 1 = 2 ∧ binom 2 2 = 1 := by decide +kernel
  simp only [cross, wedge, List.length_cons, List.length_nil, h1, h2]
  simp only [Option.bind_eq_bind, Option.bind_some, hb, List.mapM_cons, List.mapM_nil, h3]
  have d1 : complementList [0] [0, 1] [0] = [1] := by decide
  have d2 : complementList [1] [0, 1] [1] = [0] := by decide
  have s1 : findSign [0] [[0], [1]] = 1 ∧ findWhere [0] [[0], [1]] = 0 := by decide
  have s2 : findSign [1] [[0], [1]] = 1 ∧ findWhere [1] [[0], [1]] = 1 := by decide
  have p1 : permsign [0, 1] [0, 1] = 1 ∧ permsign [1, 0] [0, 1] = -1 := by decide
  simp [wedgeTerm, d1, d2, s1, s2, p1, component]
  ring

/-- C47. The product in 3 dimensions. -/
theorem C47_cross3 (a0 a1 a2 b0 b1 b2 : R) :
    cross [a0, a1, a2] [b0, b1, b2] = some [a1 * b2 - a2 * b1, a2 * b0 - a0 * b2, a0 * b1 - a1 * b0] := by
  have h1 : choose 3 1 = some [[0], [1], [2]] := by decide +kernel
  have h2 : choose 3 2 = some [[1, 2], [2, 0], [0, 1]] := by decide +kernel
  have h3 : combs [1, 2] 1 = some [[1], [2]] ∧ combs [2, 0] 1 = some [[2], [0]] ∧ combs [0, 1] 1 = some [[0], [1]] := by decide +kernel
  have hb : binom 3 1 = 3 ∧ binom 3 2 = 3 := by decide +kernel
  simp only [cross, wedge, List.length_cons, List.length_nil, h1, h2]
  simp only [Option.bind_eq_bind, Option.bind_some, hb, List.mapM_cons, List.mapM_nil, h3]
  have d1 : complementList [1] [1, 2] [1] = [2] ∧ complementList [2] [1, 2] [2] = [1] ∧ complementList [2] [2, 0] [2] = [0] ∧
    complementList [0] [2, 0] [0] = [2] ∧ complementList [0] [0, 1] [0] = [1] ∧ complementList [1] [0, 1] [1] = [0] := by decide
  have s1 : findSign [0] [[0], [1], [2]] = 1 ∧ findWhere [0] [[0], [1], [2]] = 0 ∧ findSign [1] [[0], [1], [2]] = 1 ∧
    findWhere [1] [[0], [1], [2]] = 1 ∧ findSign [2] [[0], [1], [2]] = 1 ∧ findWhere [2] [[0], [1], [2]] = 2 := by decide
  have p1 : permsign [1, 2] [1, 2] = 1 ∧ permsign [2, 1] [1, 2] = -1 ∧ permsign [2, 0] [2, 0] = 1 ∧ permsign [0, 2] [2, 0] = -1 ∧
    permsign [0, 1] [0, 1] = 1 ∧ permsign [1, 0] [0, 1] = -1 := by decide
  simp [wedgeTerm, d1, s1, p1, component]
  refine ⟨?_, ?_, ?_⟩ <;> ring

/-- C47. Two scalars are multiplied directly, which is the same. -/
theorem C47_scalars (D Oa Ob : Nat) (h : Oa + Ob ≤ D) (ha : D.choose Oa = 1) (hb : D.choose Ob = 1) (a b : R) :
    wedge D Oa Ob [a] [b] = some [wedgeScalar a b] := by
  have hOa : Oa = 0 ∨ Oa = D := by
    by_contra hn
    push Not at hn
    have := (Nat.choose_pos (n := D) (k := Oa) (by omega))
    have h2 : 1 < D.choose Oa := by
      obtain ⟨n, rfl⟩ : ∃ n, D = n + 1 := ⟨D - 1, by omega⟩
      obtain ⟨k, rfl⟩ : ∃ k, Oa = k + 1 := ⟨Oa - 1, by omega⟩
      rw [Nat.choose_succ_succ]
      have h1 := Nat.choose_pos (n := n) (k := k) (by omega)
      have h2 := Nat.choose_pos (n := n) (k := k + 1) (by omega)
      simp only [Nat.succ_eq_add_one]
      omega
    omega
  have hOb : Ob = 0 ∨ Ob = D := by
    by_contra hn
    push Not at hn
    have h2 : 1 < D.choose Ob := by
      obtain ⟨n, rfl⟩ : ∃ n, D = n + 1 := ⟨D - 1, by omega⟩
      obtain ⟨k, rfl⟩ : ∃ k, Ob = k + 1 := ⟨Ob - 1, by omega⟩
      rw [Nat.choose_succ_succ]
      have h1 := Nat.choose_pos (n := n) (k := k) (by omega)
      have h2 := Nat.choose_pos (n := n) (k := k + 1) (by omega)
      simp only [Nat.succ_eq_add_one]
      omega
    omega
  obtain ⟨Ca, Cb, Cr, r, hCa, hCb, hCr, hba, hbb, hbr, hal, hbl, hw, hr⟩ := wedge_components D Oa Ob h [a] [b] (by simp [ha]) (by simp [hb])
  have hlr : Cr.length = 1 := by
    obtain ⟨C', hC', -, hl⟩ := C45_choose D (Oa + Ob) h
    rw [hCr] at hC'
    simp only [Option.some.injEq] at hC'
    subst hC'
    rw [hl]
    by_cases e : Ob = 0
    · rw [e, Nat.add_zero, ha]
    · have e' : Oa = 0 := by omega
      rw [e', Nat.zero_add, hb]
  -- one of the two bases is the empty list, and the other is the basis of the result
  simp only [List.length_cons, List.length_nil, Nat.zero_add] at hal hbl
  obtain ⟨A, rfl⟩ := List.length_eq_one_iff.mp hal.symm
  obtain ⟨B, rfl⟩ := List.length_eq_one_iff.mp hbl.symm
  obtain ⟨X, rfl⟩ := List.length_eq_one_iff.mp hlr
  have hAl := ((isBasis_iff.mp hba).1 A (by simp)).2
  have hBl := ((isBasis_iff.mp hbb).1 B (by simp)).2
  have : permsign (A ++ B) X = 1 := by
    by_cases e : Ob = 0
    · subst e
      rw [List.length_eq_zero_iff] at hBl
      subst hBl
      simp only [Nat.add_zero, hCa, Option.some.injEq, List.cons.injEq, and_true] at hCr
      simp [hCr, permsign_self]
    · have e' : Oa = 0 := by omega
      subst e'
      rw [List.length_eq_zero_iff] at hAl
      subst hAl
      simp only [Nat.zero_add, hCb, Option.some.injEq, List.cons.injEq, and_true] at hCr
      simp [hCr, permsign_self]
  rw [hw, hr]
  simp [this, wedgeScalar]

/-- `e0 ∧ (e1 ∧ e2)` in 4 dimensions. -/
example : (2 : Nat) + 1 ≤ 4 ∧ [(1 : Int), 0, 0, 0, 0, 2].length = (4 : Nat).choose 2 ∧ [(1 : Int), 2, 3, 4].length = (4 : Nat).choose 1 := by decide +kernel
example : wedge 4 2 1 [(1 : Int), 0, 0, 0, 0, 2] [1, 2, 3, 4] = some [4, -2, 4, -3] := by decide +kernel

end Ra.Props
