import Verif.Model.Mp
import Mathlib.GroupTheory.Perm.Fin
import Mathlib.Data.List.Sublists
import Mathlib.Data.List.OfFn
import Mathlib.Data.List.NodupEquivFin
import Mathlib.Data.List.Perm.Basic
import Mathlib.Data.Nat.Choose.Basic
import Mathlib.Order.Lex
/-!
# Combinations, complement and sign of permutations: C45, C46
-/
set_option linter.unusedSectionVars false

namespace Ra.Spec

/-- `s` is the sign of the permutation that takes `C` to `R`. -/
def IsSign {α : Type} (C R : List α) (s : Int) : Prop :=
  ∃ (n : Nat) (σ : Equiv.Perm (Fin n)) (f : Fin n → α), R = List.ofFn f ∧ C = List.ofFn (f ∘ σ) ∧ s = (Equiv.Perm.sign σ : Int)

end Ra.Spec

namespace Ra.Props
open Spec

variable {α : Type} [DecidableEq α]

/-! ## Complement -/

theorem complementSearch_eq (t : α) (re S : List α) : complementSearch t re S = if t ∈ S then re else t :: re := by
  induction S with
  | nil => simp [complementSearch]
  | cons s S ih =>
    rw [complementSearch]
    by_cases e : s = t
    · simp [e]
    · simp [e, ih, Ne.symm e]

/-- C46. `complement_list<S, T>` keeps in order the elements of `T` that aren't in `S`. -/
theorem C46_complement_list (S T : List α) : complementList S T S = T.filter (fun x => decide (x ∉ S)) := by
  induction T with
  | nil => rfl
  | cons t T ih =>
    rw [complementList, complementSearch_eq, ih]
    by_cases h : t ∈ S <;> simp [h]

theorem mpIota_eq (n : Nat) : ∀ o, mpIota n o = List.range' o n := by
  induction n with
  | zero => intro o; rfl
  | succ n ih => intro o; simp [mpIota, ih, List.range'_succ]

theorem mpIota_zero (n : Nat) : mpIota n 0 = List.range n := by rw [mpIota_eq, List.range_eq_range']

/-- C46. `complement<S, n>` is the numbers from 0 up to `n` that aren't in `S`, in order. -/
theorem C46_complement (S : List Nat) (n : Nat) : complement S n = (List.range n).filter (fun x => decide (x ∉ S)) := by
  rw [complement, C46_complement_list, mpIota_zero]

example : complement [4, 1] 6 = [0, 2, 3, 5] := by rw [C46_complement]; decide

/-! ## Sign -/

theorem mpIndexFrom_eq (T : α) (L : List α) : ∀ i, mpIndexFrom T i L = if T ∈ L then ((i + L.idxOf T : Nat) : Int) else -1 := by
  induction L with
  | nil => intro i; simp [mpIndexFrom]
  | cons x L ih =>
    intro i
    rw [mpIndexFrom]
    by_cases e : T = x
    · subst e; simp
    · rw [if_neg e, ih]
      simp only [List.mem_cons, e, false_or]
      split
      · rw [List.idxOf_cons_ne _ (Ne.symm e)]; push_cast; omega
      · rfl

theorem mpIndex_eq (T : α) (L : List α) : mpIndex L T = if T ∈ L then (L.idxOf T : Int) else -1 := by
  rw [mpIndex, mpIndexFrom_eq]; simp

theorem permsign_cons (C : List α) (r : α) (R : List α) :
    permsign C (r :: R) = if r ∈ C then permsign (C.eraseIdx (C.idxOf r)) R * (-1) ^ (C.idxOf r) else 0 := by
  cases C with
  | nil => simp [permsign]
  | cons c C =>
    rw [permsign, mpIndex_eq]
    by_cases h : r ∈ c :: C
    · simp only [h, if_true]
      rw [if_neg (by omega), List.eraseIdx_eq_take_drop_succ]
      simp only [Int.toNat_natCast]
      congr 1
      rcases Nat.even_or_odd (List.idxOf r (c :: C)) with e | e
      · rw [if_neg (by rw [Nat.even_iff] at e; omega), e.neg_one_pow]
      · rw [if_pos (by rw [Nat.odd_iff] at e; omega), e.neg_one_pow]
    · simp [h]

theorem permsign_nil_right (C : List α) : permsign C [] = if C = [] then 1 else 0 := by
  cases C <;> simp [permsign]

/-- The sign isn't 0 exactly when the lists are arrangements of each other. -/
theorem permsign_ne_zero (R : List α) : ∀ C : List α, permsign C R ≠ 0 ↔ C.Perm R := by
  induction R with
  | nil => intro C; rw [permsign_nil_right]; cases C <;> simp
  | cons r R ih =>
    intro C
    rw [permsign_cons]
    by_cases h : r ∈ C
    · simp only [h, if_true, ne_eq, mul_eq_zero, not_or]
      have e1 : ¬ ((-1 : Int) ^ C.idxOf r = 0) := by simp
      simp only [e1, not_false_eq_true, and_true]
      have hp : C.Perm (r :: C.eraseIdx (C.idxOf r)) := by
        have := List.getElem_cons_eraseIdx_perm (l := C) (n := C.idxOf r) (List.idxOf_lt_length_iff.mpr h)
        rw [List.getElem_idxOf] at this
        exact this.symm
      rw [← ne_eq, ih]
      exact ⟨fun q => hp.trans (q.cons r), fun q => (hp.symm.trans q).cons_inv⟩
    · simp only [h, if_false, ne_eq, not_true_eq_false, false_iff]
      intro q
      exact h (q.mem_iff.mpr (by simp))

theorem eraseIdx_ofFn {n : Nat} (f : Fin (n + 1) → α) (i : Fin (n + 1)) : (List.ofFn f).eraseIdx i = List.ofFn (f ∘ i.succAbove) := by
  apply List.ext_getElem
  · simp [List.length_eraseIdx]; omega
  · intro k h1 h2
    simp only [List.length_ofFn] at h2
    rw [List.getElem_eraseIdx]
    simp only [List.getElem_ofFn, Function.comp]
    split
    · next hk =>
      congr 1
      rw [Fin.succAbove_of_castSucc_lt _ _ (by simpa [Fin.lt_def] using hk)]
      rfl
    · next hk =>
      congr 1
      rw [Fin.succAbove_of_le_castSucc _ _ (by simp [Fin.le_def]; omega)]
      rfl

theorem permsign_ofFn : ∀ (n : Nat) (f : Fin n → α) (σ : Equiv.Perm (Fin n)), Function.Injective f →
    permsign (List.ofFn (f ∘ σ)) (List.ofFn f) = (Equiv.Perm.sign σ : Int) := by
  intro n
  induction n with
  | zero =>
    intro f σ _
    have : σ = 1 := Subsingleton.elim _ _
    simp [permsign, this]
  | succ n ih =>
    intro f σ hf
    have hR : List.ofFn f = f 0 :: List.ofFn (fun i => f (Fin.succ i)) := List.ofFn_succ
    let w := σ.symm 0
    have hw : σ w = 0 := by simp [w]
    have hnd : (List.ofFn (f ∘ σ)).Nodup := List.nodup_ofFn.mpr (hf.comp σ.injective)
    have hmem : f 0 ∈ List.ofFn (f ∘ σ) := by
      rw [List.mem_ofFn]
      exact ⟨w, by simp [hw]⟩
    have hidx : (List.ofFn (f ∘ σ)).idxOf (f 0) = w := by
      have hl : (w : Nat) < (List.ofFn (f ∘ σ)).length := by simp; omega
      have := hnd.idxOf_getElem w hl
      rw [List.getElem_ofFn] at this
      simpa only [Function.comp, Fin.eta, hw] using this
    rw [hR, permsign_cons, if_pos hmem, hidx, eraseIdx_ofFn]
    -- the rest
    let τ : Equiv.Perm (Fin (n + 1)) := σ * (Fin.cycleRange w)⁻¹
    have hτ0 : τ 0 = 0 := by
      have : (Fin.cycleRange w)⁻¹ 0 = w := by
        rw [Equiv.Perm.inv_eq_iff_eq]; simp [Fin.cycleRange_self]
      simp only [τ, Equiv.Perm.mul_apply, this, hw]
    obtain ⟨⟨p, σ'⟩, hσ'⟩ := Equiv.Perm.decomposeFin.symm.surjective τ
    have hp : p = 0 := by
      have := Equiv.Perm.decomposeFin_symm_apply_zero p σ'
      rw [hσ', hτ0] at this
      exact this.symm
    subst hp
    have hsucc (j : Fin n) : σ (w.succAbove j) = (σ' j).succ := by
      have h1 : τ (Fin.cycleRange w (w.succAbove j)) = σ (w.succAbove j) := by simp [τ]
      rw [← h1, Fin.cycleRange_succAbove, ← hσ', Equiv.Perm.decomposeFin_symm_apply_succ]
      simp
    have hcomp : (f ∘ σ) ∘ w.succAbove = (fun i => f (Fin.succ i)) ∘ σ' := by
      funext j
      simp [hsucc]
    rw [hcomp, ih (fun i => f i.succ) σ' (hf.comp (Fin.succ_injective n))]
    have hs : σ = τ * Fin.cycleRange w := by simp [τ]
    rw [hs, Equiv.Perm.sign_mul, Fin.sign_cycleRange, ← hσ', Equiv.Perm.decomposeFin.symm_sign]
    simp

/-- C46. `permsign<C, R>` is the sign of the permutation that takes `C` to `R`. -/
theorem C46_permsign (C R : List α) (h : R.Nodup) (s : Int) (hs : IsSign C R s) : permsign C R = s := by
  obtain ⟨n, σ, f, rfl, rfl, rfl⟩ := hs
  exact permsign_ofFn n f σ (List.nodup_ofFn.mp h)

/-- C46. Arrangements of the same elements have a sign, so that the theorem before this one applies. -/
theorem C46_sign_exists (C R : List α) (h : R.Nodup) (hp : C.Perm R) : IsSign C R (permsign C R) ∧ (permsign C R = 1 ∨ permsign C R = -1) := by
  have hC : C.Nodup := hp.nodup_iff.mpr h
  have hl : C.length = R.length := hp.length_eq
  have hlt (i : Fin R.length) : R.idxOf (C[i]'(by omega)) < R.length := List.idxOf_lt_length_iff.mpr (hp.mem_iff.mp (List.getElem_mem _))
  let g : Fin R.length → Fin R.length := fun i => ⟨R.idxOf (C[i]'(by omega)), hlt i⟩
  have hg : Function.Injective g := by
    intro a b hab
    simp only [g, Fin.mk.injEq] at hab
    have : C[a] = C[b] := by
      have h1 : R[R.idxOf C[a]]'(hlt a) = C[a] := List.getElem_idxOf _
      have h2 : R[R.idxOf C[b]]'(hlt b) = C[b] := List.getElem_idxOf _
      rw [← h1, ← h2]
      congr 1
    have := (hC.getElem_inj_iff).mp this
    exact Fin.ext this
  let σ : Equiv.Perm (Fin R.length) := Equiv.ofBijective g (Finite.injective_iff_bijective.mp hg)
  have hs : IsSign C R (Equiv.Perm.sign σ : Int) := by
    refine ⟨R.length, σ, fun i => R[i], ?_, ?_, rfl⟩
    · simp
    · apply List.ext_getElem
      · simp [hl]
      · intro k h1 h2
        have : R[R.idxOf C[k]]'(hlt ⟨k, by omega⟩) = C[k] := List.getElem_idxOf _
        simp [σ, g, this]
  have he := C46_permsign C R h _ hs
  rw [he]
  refine ⟨hs, ?_⟩
  rcases Int.units_eq_one_or (Equiv.Perm.sign σ) with e | e <;> simp [e]

/-- C46. If they aren't arrangements of each other, the sign is 0. -/
theorem C46_zero (C R : List α) : permsign C R = 0 ↔ ¬ C.Perm R := by
  rw [← permsign_ne_zero]; simp

example : permsign [2, 0, 1] [0, 1, 2] = 1 ∧ permsign [1, 0, 2] [0, 1, 2] = -1 ∧ permsign [0, 0] [0, 1] = 0 := by decide

theorem mpIndexifFrom_eq {β : Type} (P : β → Bool) (L : List β) : ∀ i, mpIndexifFrom P i L = if L.any P then ((i + L.findIdx P : Nat) : Int) else -1 := by
  induction L with
  | nil => intro i; simp [mpIndexifFrom]
  | cons x L ih =>
    intro i
    rw [mpIndexifFrom, List.findIdx_cons]
    cases e : P x
    · simp only [ih, List.any_cons, e, Bool.false_or, cond_false]
      simp
      split <;> omega
    · simp [e]

/-- C46. `findcomb<P, L>` finds the arrangement of `P` that is in `L` and its sign. -/
theorem C46_findcomb (P : List α) (L : List (List α)) (k : Nat) (A : List α) (hk : L[k]? = some A) (hp : P.Perm A)
    (hu : ∀ k' A', L[k']? = some A' → P.Perm A' → k' = k) : findWhere P L = k ∧ findSign P L = permsign P A := by
  have hany : L.any (fun A => decide (0 ≠ permsign P A)) = true := by
    rw [List.any_eq_true]
    refine ⟨A, List.mem_of_getElem? hk, ?_⟩
    have := (permsign_ne_zero A P).mpr hp
    simpa using Ne.symm this
  have hw : findWhere P L = k := by
    rw [findWhere, mpIndexif, mpIndexifFrom_eq, if_pos hany]
    simp only [Nat.zero_add, Nat.cast_inj]
    have hlt : L.findIdx (fun A => decide (0 ≠ permsign P A)) < L.length := List.findIdx_lt_length.mpr (by simpa using hany)
    refine hu _ (L[L.findIdx (fun A => decide (0 ≠ permsign P A))]) (List.getElem?_eq_getElem hlt) ?_
    have := List.findIdx_getElem (w := hlt)
    rw [← permsign_ne_zero]
    simp only [decide_eq_true_eq] at this
    exact Ne.symm this
  refine ⟨hw, ?_⟩
  rw [findSign, hw]
  simp [hk]

/-- C46. If there's no arrangement of `P` in `L`, it isn't found. -/
theorem C46_findcomb_none (P : List α) (L : List (List α)) (h : ∀ A ∈ L, ¬ P.Perm A) : findWhere P L = -1 ∧ findSign P L = 0 := by
  have hany : L.any (fun A => decide (0 ≠ permsign P A)) = false := by
    rw [List.any_eq_false]
    intro A hA
    have := (C46_zero P A).mpr (h A hA)
    simp [this]
  have hw : findWhere P L = -1 := by
    rw [findWhere, mpIndexif, mpIndexifFrom_eq, hany]; simp
  refine ⟨hw, ?_⟩
  rw [findSign, hw]
  split <;> simp

example : findWhere [2, 0] [[0, 1], [0, 2], [1, 2]] = 1 ∧ findSign [2, 0] [[0, 1], [0, 2], [1, 2]] = -1 := by decide

end Ra.Props
