import Verif.Props.Explode
/-!
# Exactly which views explode: C25
-/

namespace Ra.Spec

/-- The axes of `a` that `explode` makes elements of, `g`, have the lengths of the type; the elements of a value of the type are together, `z`, and they make the size of a value; everything is in
row-major order; and the steps of the other axes, `f`, are multiples of the size of the type. Here `e` is the size in bytes of the elements of `a`. -/
def Explodes (sup : Ty) (p : List Nat) (e m : Int) (f g z : List Dim) : Prop :=
  z.length = (if m = e then 0 else 1) ∧ (∀ d ∈ z, d.step = 1) ∧ e * (z.map Dim.len).prod = m ∧
    g.map Dim.len = p.map Nat.cast ∧ g.map Dim.step = sup.dims.map (fun d => (z.map Dim.len).prod * d.step) ∧ ∀ d ∈ f, (z.map Dim.len).prod * size p ∣ d.step

end Ra.Spec

namespace Ra.Props
open Spec (Length DimLen Shaped InRange address dot Valid rowMajor size position byteAddress ScalarTy ArrayTy Explodes)

theorem axesLoop_exact (s : Int) (sup g : List Dim) (h : sup.length = g.length) :
    axesLoop s sup g = if g = sup.map (fun d => ⟨d.len, s * d.step⟩) then .ok () else .error .check := by
  induction sup generalizing g with
  | nil =>
    cases g with
    | nil => rfl
    | cons _ _ => simp at h
  | cons p sup ih =>
    cases g with
    | nil => simp at h
    | cons d g =>
      simp only [axesLoop, ih g (by simpa using h), List.map_cons, List.cons.injEq]
      obtain ⟨l, st⟩ := d
      simp only [Dim.mk.injEq]
      by_cases h1 : p.len = l ∧ s * p.step = st
      · rw [if_pos h1]
        simp only [h1.1, h1.2, true_and]
      · rw [if_neg h1, if_neg]
        rintro ⟨⟨h2, h3⟩, _⟩
        exact h1 ⟨h2.symm, h3.symm⟩

theorem axesLoop_append (s : Int) (sup g z : List Dim) (h : sup.length = g.length) : axesLoop s sup (g ++ z) = axesLoop s sup g := by
  induction sup generalizing g with
  | nil =>
    cases g with
    | nil => simp [axesLoop]
    | cons _ _ => simp at h
  | cons p sup ih =>
    cases g with
    | nil => simp at h
    | cons d g => simp only [List.cons_append, axesLoop, ih g (by simpa using h)]

theorem stepOk_iff (s st : Int) : stepOk s st = true ↔ s ∣ st := by
  simp only [stepOk]
  split
  · rename_i h
    subst h
    simp only [beq_iff_eq, zero_dvd_iff]
    exact eq_comm
  · simp only [beq_iff_eq]
    exact ⟨fun h => Int.dvd_of_tmod_eq_zero h.symm, fun h => (Int.tmod_eq_zero_of_dvd h).symm⟩

theorem frameLoop_exact (s : Int) (f : List Dim) :
    frameLoop s f = if ∀ d ∈ f, s ∣ d.step then .ok (f.map fun d => ⟨d.len, if 0 = s then 0 else Int.tdiv d.step s⟩) else .error .check := by
  induction f with
  | nil => simp [frameLoop]
  | cons d f ih =>
    simp only [frameLoop, ih, stepOk_iff, List.forall_mem_cons, bind, Except.bind]
    by_cases h1 : s ∣ d.step
    · by_cases h2 : ∀ d ∈ f, s ∣ d.step
      · have h3 : s ∣ d.step ∧ ∀ d ∈ f, s ∣ d.step := ⟨h1, h2⟩
        rw [if_pos h1, if_pos h2, if_pos h3]
        rfl
      · have h3 : ¬ (s ∣ d.step ∧ ∀ d ∈ f, s ∣ d.step) := fun h => h2 h.2
        rw [if_pos h1, if_neg h2, if_neg h3]
    · have h3 : ¬ (s ∣ d.step ∧ ∀ d ∈ f, s ∣ d.step) := fun h => h1 h.1
      rw [if_neg h1, if_neg h3]

/-- C25. `explode` succeeds if and only if the axes of the view are those of a frame, those of the type, and the bytes of an element, and they fit. Else the check fails, if the view has that many axes; if it
doesn't then the rank of the result can't be negative and an exception is thrown. -/
theorem C25_explode_exact (v : View) (sup : Ty) (p : List Nat) (e m : Int) (hsup : ArrayTy sup p m) :
    ((∃ r, v.explode sup e = .ok r) ↔ ∃ f g z, v.dims = f ++ g ++ z ∧ Explodes sup p e m f g z) ∧
    ((¬ ∃ r, v.explode sup e = .ok r) → v.explode sup e = if p.length + (if m = e then 0 else 1) ≤ v.dims.length then .error .check else .error .abort) := by
  obtain ⟨dims, cp⟩ := v
  obtain ⟨sd, sv, ss⟩ := sup
  obtain ⟨a1, a2, a3, a4⟩ := hsup
  simp only at a1 a2 a3 a4
  subst a3 a4
  have pl : sd.length = p.length := by simpa using congrArg List.length a1
  have hsz : dimvSize sd = size p := by
    have : Shaped ⟨sd, 0⟩ (p.map some) := shaped_nat.mpr a1
    exact dimvSize_eq this
  generalize hn : (if sv = e then 0 else 1 : Nat) = n
  have hru : (if sv = e then (0 : Int) else 1) = (n : Int) := by rw [← hn]; split <;> simp
  have hn1 : n = 0 ∨ n = 1 := by rw [← hn]; split <;> simp
  by_cases hlen : p.length + n ≤ dims.length
  · obtain ⟨rb, hrb⟩ := Nat.exists_eq_add_of_le hlen
    have hf : (dims.take rb).length = rb := by simp; omega
    have hg : ((dims.drop rb).take sd.length).length = sd.length := by simp; omega
    have hz : ((dims.drop rb).drop sd.length).length = n := by simp; omega
    have hsplit : dims = dims.take rb ++ (dims.drop rb).take sd.length ++ (dims.drop rb).drop sd.length := by
      rw [List.append_assoc, List.take_append_drop, List.take_append_drop]
    generalize dims.take rb = f at hf hsplit
    generalize (dims.drop rb).take sd.length = g at hg hsplit
    generalize (dims.drop rb).drop sd.length = z at hz hsplit
    subst hsplit
    have hfits : (∃ f' g' z' : List Dim, f ++ g ++ z = f' ++ g' ++ z' ∧ Explodes ⟨sd, sv, size p * sv⟩ p e sv f' g' z') ↔ Explodes ⟨sd, sv, size p * sv⟩ p e sv f g z := by
      constructor
      · rintro ⟨f', g', z', h1, h2⟩
        have hz' : z'.length = z.length := by rw [h2.1, hz, hn]
        have hg' : g'.length = g.length := by
          have := congrArg List.length h2.2.2.2.1
          simp at this
          omega
        obtain ⟨h3, rfl⟩ := List.append_inj' h1 hz'.symm
        obtain ⟨rfl, rfl⟩ := List.append_inj' h3 hg'.symm
        exact h2
      · intro h
        exact ⟨f, g, z, rfl, h⟩
    rw [hfits]
    have hgoal : ∀ b : Prop, ∀ y : Except Fault View, (∃ r, y = .ok r ∧ b) ∨ (y = .error .check ∧ ¬ b) → (((∃ r, y = .ok r) ↔ b) ∧
        ((¬ ∃ r, y = .ok r) → y = if p.length + n ≤ (f ++ g ++ z).length then .error .check else .error .abort)) := by
      rintro b y (⟨r, rfl, hb⟩ | ⟨rfl, hb⟩)
      · exact ⟨⟨fun _ => hb, fun _ => ⟨r, rfl⟩⟩, fun h => absurd ⟨r, rfl⟩ h⟩
      · refine ⟨⟨fun h => by simp at h, fun h => absurd h hb⟩, fun _ => ?_⟩
        rw [if_pos hlen]
    apply hgoal
    simp only [View.explode, hru]
    have hrb' : (((f ++ g ++ z).length : Int) - sd.length - n) = (rb : Int) := by
      simp only [List.length_append]; omega
    rw [hrb', if_neg (by omega), Int.toNat_natCast]
    have d1 : (f ++ g ++ z).drop (rb + sd.length) = z := by rw [List.drop_left' (by simp; omega)]
    have d2 : (f ++ g ++ z).drop rb = g ++ z := by rw [List.append_assoc, List.drop_left' hf]
    have d3 : (f ++ g ++ z).take rb = f := by rw [List.append_assoc, List.take_left' hf]
    rw [d1, d2, d3]
    have hc : compactLoop 1 z = if ∀ d ∈ z, d.step = 1 then .ok (z.map Dim.len).prod else .error .check := by
      rcases hn1 with h0 | h0
      · rw [h0] at hz
        have : z = [] := by simpa using hz
        subst this
        simp [compactLoop]
      · rw [h0] at hz
        match z, hz with
        | [d], _ => simp [compactLoop]
    have hgm : (g.map Dim.len = p.map Nat.cast ∧ g.map Dim.step = sd.map (fun d => (z.map Dim.len).prod * d.step)) ↔
        g = sd.map (fun d => ⟨d.len, (z.map Dim.len).prod * d.step⟩) := by
      rw [← a1]
      constructor
      · rintro ⟨h1, h2⟩
        refine List.ext_getElem (by simpa using hg) ?_
        intro k k1 k2
        have h3 := List.getElem_of_eq h1 (show k < (g.map Dim.len).length by simpa using k1)
        have h4 := List.getElem_of_eq h2 (show k < (g.map Dim.step).length by simpa using k1)
        simp only [List.getElem_map] at h3 h4 ⊢
        rw [← h3, ← h4]
      · intro h
        generalize (z.map Dim.len).prod = y at h
        subst h
        simp [Function.comp_def]
    rw [hc]
    unfold Spec.Explodes
    rw [hz, if_congr Iff.rfl rfl rfl, hn]
    by_cases h1 : ∀ d ∈ z, d.step = 1
    · rw [if_pos h1]
      simp only [bind, Except.bind]
      by_cases h2 : (z.map Dim.len).prod * e = sv
      · rw [if_pos h2, axesLoop_append _ _ _ _ hg.symm, axesLoop_exact _ _ _ hg.symm, hsz]
        by_cases h3 : g = sd.map (fun d => ⟨d.len, (z.map Dim.len).prod * d.step⟩)
        · rw [if_pos h3, frameLoop_exact]
          by_cases h4 : ∀ d ∈ f, (z.map Dim.len).prod * size p ∣ d.step
          · left
            rw [if_pos h4]
            refine ⟨_, rfl, trivial, h1, by rw [← h2]; ring, (hgm.mpr h3).1, (hgm.mpr h3).2, h4⟩
          · right
            rw [if_neg h4]
            exact ⟨rfl, fun h => h4 h.2.2.2.2.2⟩
        · right
          rw [if_neg h3]
          exact ⟨rfl, fun h => h3 (hgm.mp ⟨h.2.2.2.1, h.2.2.2.2.1⟩)⟩
      · right
        rw [if_neg h2]
        exact ⟨rfl, fun h => h2 (by rw [mul_comm]; exact h.2.2.1)⟩
    · right
      rw [if_neg h1]
      exact ⟨rfl, fun h => h1 h.2.1⟩
  · have hab : (View.mk dims cp).explode ⟨sd, sv, size p * sv⟩ e = .error .abort := by
      simp only [View.explode, hru]
      rw [if_pos (by omega)]
    rw [hab]
    refine ⟨⟨fun h => by simp at h, ?_⟩, fun _ => by rw [if_neg hlen]⟩
    rintro ⟨f, g, z, h1, h2⟩
    exfalso
    simp only at h1
    have h3 := h2.1
    have h4 : g.length = p.length := by simpa using congrArg List.length h2.2.2.2.1
    rw [hn] at h3
    rw [h1] at hlen
    simp at hlen
    omega

/-- Reading a view of shape (5, 2, 3) of 4 byte numbers as a vector of 2x3 arrays; and each number is made of 2 bytes. -/
example : ArrayTy ⟨[⟨2, 3⟩, ⟨3, 1⟩], 4, 24⟩ [2, 3] 4 ∧ Explodes ⟨[⟨2, 3⟩, ⟨3, 1⟩], 4, 24⟩ [2, 3] 2 4 [⟨5, 24⟩] [⟨2, 6⟩, ⟨3, 2⟩] [⟨2, 1⟩] := by
  refine ⟨⟨rfl, ?_, rfl, rfl⟩, rfl, by decide, rfl, rfl, rfl, by decide⟩
  intro j hj
  match j, hj with
  | [a, b], _ => simp [dot, position, size]
/-- The columns can't be out of order. -/
example : (⟨[⟨3, 1⟩, ⟨2, 3⟩], 0⟩ : View).explode ⟨[⟨3, 2⟩, ⟨2, 1⟩], 4, 24⟩ 4 = .error .check := by decide +kernel

end Ra.Props
