import Verif.Model.Maxwell
import Verif.Props.Select
import Verif.Props.AxisSum
/-!
# Shifts around an axis: C112
-/

namespace Ra.Spec

/-- The elements of `v`, of shape `s`, are `x`. -/
def ElemsAre {V : Type} (μ : Mem V) (v : View) (s : List Nat) (x : List Int → V) : Prop := ∀ i, Valid s i → μ (address v i) = some (x i)

/-- The index that is next to `i` on axis `k`, of length `n`, or the first one if there are no more. -/
def after (n : Nat) (k : Nat) (i : List Int) : List Int := i.set k (if i.getD k 0 + 1 < n then i.getD k 0 + 1 else 0)

/-- The index that is before `i` on axis `k`, of length `n`, or the last one if there are no more. -/
def before (n : Nat) (k : Nat) (i : List Int) : List Int := i.set k (if 0 < i.getD k 0 then i.getD k 0 - 1 else n - 1)

/-- What `=` (if `g` isn't given) or `OP=` does to a number. -/
def putVal {V : Type} (g : Option (V → V → V)) (x y : V) : V :=
  match g with
  | none => y
  | some g => g x y

end Ra.Spec

namespace Ra.Props
open Spec

/-! ## Subscripts with `len` -/

/-- Subscripts that have the same values on the axes that they apply to. -/
inductive SubsEq : List Dim → List Sub → List Sub → Prop
  | nil (dims) : SubsEq dims [] []
  | scalar {d dims e x is is'} : (e.wlen d.len).val = .ok x → SubsEq dims is is' → SubsEq (d :: dims) (.scalar e :: is) (.scalar (.const x) :: is')
  | iota {d dims e o n st x is is'} : (e.wlen d.len).val = .ok n → (o.wlen d.len).val = .ok x → SubsEq dims is is' →
    SubsEq (d :: dims) (.iota [(e, .const st)] o :: is) (.iota [(.const n, .const st)] (.const x) :: is')
  | dots {dims k is is'} : SubsEq (dims.drop k) is is' → SubsEq dims (.dots (some k) :: is) (.dots (some k) :: is')

theorem fromb_same {dims : List Dim} {is is' : List Sub} (h : SubsEq dims is is') (pl : Int) (bk : Nat) : fromb pl bk dims is = fromb pl bk dims is' := by
  induction h generalizing pl bk with
  | nil => rfl
  | scalar h1 _ ih => simp only [fromb, h1, val_const, bind, Except.bind, ih]
  | iota h1 h2 _ ih => simp only [fromb, iotaDims, h1, h2, val_const, bind, Except.bind, pure, Except.pure, ih]
  | dots _ ih => simp only [fromb, ih]

theorem from_same {v : View} {is is' : List Sub} (h : SubsEq v.dims is is') : v.from is = v.from is' := by
  simp only [View.from, fromb_same h]

theorem fromb_alls (k : Nat) (is : List Sub) (pl : Int) (bk : Nat) (dims : List Dim) (hk : k ≤ dims.length) : fromb pl bk dims (alls k ++ is) = fromb pl bk dims (.dots (some k) :: is) := by
  induction k generalizing bk dims with
  | zero =>
    simp only [alls, List.replicate_zero, List.nil_append, fromb, Nat.not_lt_zero, if_false, Nat.add_zero, List.drop_zero, List.take_zero]
    cases fromb pl bk dims is <;> rfl
  | succ k ih =>
    cases dims with
    | nil => simp at hk
    | cons d dims =>
      simp only [List.length_cons] at hk
      have e : alls (k + 1) ++ is = .dots (some 1) :: (alls k ++ is) := rfl
      rw [e]
      simp only [fromb]
      rw [ih (bk + 1) ((d :: dims).drop 1) (by simp; omega)]
      simp only [fromb, List.length_cons, List.drop_succ_cons, List.drop_zero, List.take_succ_cons, List.take_zero]
      rw [if_neg (by omega), if_neg (by omega), if_neg (by omega), show bk + 1 + k = bk + (k + 1) by omega]
      cases fromb pl (bk + (k + 1)) (dims.drop k) is <;> rfl

theorem from_alls (v : View) (k : Nat) (is : List Sub) (hk : k ≤ v.dims.length) : v.from (alls k ++ is) = v.from (.dots (some k) :: is) := by
  simp only [View.from, fromb_alls k is _ _ _ hk]

theorem lenLess_val (n ln : Int) : ((lenLess n).wlen ln).val = .ok (ln - n) := by
  simp [lenLess, LenExpr.wlen, LenExpr.val, wlens, vals, hasLens, LenExpr.hasLen, bind, Except.bind, pure, Except.pure]

theorem dims_drop {v : View} {s : List Nat} (hv : Shaped v (s.map some)) {k : Nat} (hk : k < s.length) : ∃ d ds, v.dims.drop k = d :: ds ∧ d.len = s[k] ∧ ds = v.dims.drop (k + 1) := by
  have hl := hv.length_eq
  simp only [List.length_map] at hl
  have hk' : k < v.dims.length := by omega
  refine ⟨v.dims[k], v.dims.drop (k + 1), List.drop_eq_getElem_cons hk', ?_, rfl⟩
  have := (List.forall₂_iff_get.mp hv).2 k hk' (by simpa using hk)
  simpa [DimLen] using this

theorem from_iotaLess {v : View} {s : List Nat} (hv : Shaped v (s.map some)) {k : Nat} (hk : k < s.length) (n : Nat) (hn : n ≤ s[k]) (o : Int) :
    v.from [.dots (some k), iotaLess n o] = v.from [.dots (some k), .iota [(.const ((s[k] - n : Nat) : Int), .const 1)] (.const o)] := by
  obtain ⟨d, ds, h1, h2, _⟩ := dims_drop hv hk
  refine from_same (.dots ?_)
  rw [h1]
  refine .iota ?_ (val_const _ _) (.nil _)
  rw [lenLess_val, h2]
  congr 1
  omega

theorem from_lenLess {v : View} {s : List Nat} (hv : Shaped v (s.map some)) {k : Nat} (hk : k < s.length) (n : Int) :
    v.from [.dots (some k), .scalar (lenLess n)] = v.from [.dots (some k), .scalar (.const (s[k] - n))] := by
  obtain ⟨d, ds, h1, h2, _⟩ := dims_drop hv hk
  refine from_same (.dots ?_)
  rw [h1]
  refine .scalar ?_ (.nil _)
  rw [lenLess_val, h2]

/-! ## Parts of an axis -/

theorem valid_axis {s : List Nat} {k : Nat} (hk : k < s.length) {i : List Int} (hi : Valid s i) : 0 ≤ i.getD k 0 ∧ i.getD k 0 < s[k] := by
  induction s generalizing k i with
  | nil => simp at hk
  | cons n s ih =>
    cases i with
    | nil => simp [Valid] at hi
    | cons a i =>
      simp only [Valid] at hi
      cases k with
      | zero => exact ⟨hi.1, hi.2.1⟩
      | succ k => simpa using ih (by simpa using hk) hi.2.2

theorem valid_set {s : List Nat} {k : Nat} (hk : k < s.length) {i : List Int} (hi : Valid s i) (m : Nat) (a : Int) (ha : 0 ≤ a ∧ a < m) : Valid (s.set k m) (i.set k a) := by
  induction s generalizing k i with
  | nil => simp at hk
  | cons n s ih =>
    cases i with
    | nil => simp [Valid] at hi
    | cons b i =>
      simp only [Valid] at hi
      cases k with
      | zero => exact ⟨ha.1, ha.2, hi.2.2⟩
      | succ k => exact ⟨hi.1, hi.2.1, ih (by simpa using hk) hi.2.2⟩

theorem axis_range {v : View} {s : List Nat} (hv : Shaped v (s.map some)) {k : Nat} (hk : k < s.length) (m : Nat) (o : Int) (h : ∀ i : Nat, i < m → 0 ≤ o + i ∧ o + i < s[k]) :
    ∃ w, v.from [.dots (some k), .iota [(.const m, .const 1)] (.const o)] = .ok w ∧ Shaped w ((s.set k m).map some) ∧
      ∀ j, Valid (s.set k m) j → address w j = address v (j.set k (o + j.getD k 0)) := by
  obtain ⟨w, hw⟩ := (C12_range v s hv k hk m o 1).mpr fun i hi => by have := h i hi; omega
  obtain ⟨h1, h2⟩ := C12_elements v s hv k hk m o 1 w hw
  refine ⟨w, hw, h1, fun j hj => ?_⟩
  rw [(h2 j hj).1, Int.one_mul]

/-- `j` with `a` on axis `k`. -/
def putAxis (k : Nat) (a : Int) (j : List Int) : List Int := j.take k ++ a :: j.drop k

theorem valid_putAxis {s : List Nat} {k : Nat} (hk : k < s.length) {j : List Int} (hj : Valid (s.eraseIdx k) j) {a : Int} (ha : 0 ≤ a ∧ a < s[k]) : Valid s (putAxis k a j) := by
  induction s generalizing k j with
  | nil => simp at hk
  | cons n s ih =>
    cases k with
    | zero => exact ⟨ha.1, ha.2, hj⟩
    | succ k =>
      cases j with
      | nil => simp [Valid] at hj
      | cons b j =>
        simp only [List.eraseIdx_cons_succ, Valid] at hj
        exact ⟨hj.1, hj.2.1, ih (by simpa using hk) hj.2.2 ha⟩

theorem valid_erase {s : List Nat} {k : Nat} (hk : k < s.length) {i : List Int} (hi : Valid s i) : Valid (s.eraseIdx k) (i.eraseIdx k) := by
  induction s generalizing k i with
  | nil => simp at hk
  | cons n s ih =>
    cases i with
    | nil => simp [Valid] at hi
    | cons b i =>
      simp only [Valid] at hi
      cases k with
      | zero => exact hi.2.2
      | succ k => exact ⟨hi.1, hi.2.1, ih (by simpa using hk) hi.2.2⟩

theorem putAxis_erase {s : List Nat} {k : Nat} (hk : k < s.length) {i : List Int} (hi : Valid s i) (a : Int) : putAxis k a (i.eraseIdx k) = i.set k a := by
  have hl := hi.length
  clear hi
  induction k generalizing s i with
  | zero =>
    cases i with
    | nil => simp at hl; omega
    | cons b i => simp [putAxis]
  | succ k ih =>
    cases i with
    | nil => simp at hl; omega
    | cons b i =>
      cases s with
      | nil => simp at hk
      | cons n s => simpa [putAxis] using ih (s := s) (by simpa using hk) (by simpa using hl)

theorem putAxis_inj {k : Nat} {a : Int} {i j : List Int} (h : putAxis k a i = putAxis k a j) (hi : k ≤ i.length) (hj : k ≤ j.length) : i = j := by
  have := List.append_inj h (by simp; omega)
  obtain ⟨h1, h2⟩ := this
  injection h2 with _ h2
  rw [← List.take_append_drop k i, ← List.take_append_drop k j, h1, h2]

theorem axis_at {v : View} {s : List Nat} (hv : Shaped v (s.map some)) {k : Nat} (hk : k < s.length) (a : Int) (ha : 0 ≤ a ∧ a < s[k]) :
    ∃ w, v.from [.dots (some k), .scalar (.const a)] = .ok w ∧ Shaped w ((s.eraseIdx k).map some) ∧ ∀ j, Valid (s.eraseIdx k) j → address w j = address v (putAxis k a j) := by
  obtain ⟨d, ds, e1, e2, _⟩ := dims_drop hv hk
  obtain ⟨w, h1, h2, h3⟩ := C13_slice v (s.map some) hv [.keep k, .at a] (by simp [axes]; omega) (by
    simp only [Accepts, e1, e2]
    exact ⟨.inl ha, trivial⟩)
  have es : sliceShape (s.map some) [.keep k, .at a] = (s.eraseIdx k).map some := by
    simp only [sliceShape, List.drop_drop, ← List.map_take, ← List.map_drop, ← List.map_append, List.eraseIdx_eq_take_drop_succ]
  rw [es] at h2 h3
  refine ⟨w, h1, h2, fun j hj => ?_⟩
  rw [(h3 j (inRange_of_valid hj)).1]
  rfl

section
variable {V : Type}

theorem put_view (g : Option (V → V → V)) (dyn : Bool) (z : List Int) (hz : ∀ i ∈ z, i = 0) (w : View) (t : List Nat) (hw : Shaped w (t.map some)) (hd : Distinct w t)
    (e : Iter (Act V) (Lv V)) (se : List Length) (he : HasShape e se) (hm : Merge [t.map some, se] (t.map some)) (μ : Mem V) (val f : List Int → V) (hval : ElemsAre μ w t val)
    (hf : ∀ j, Valid t j → ∀ μ', SameOutside (InView w t) μ μ' → Reads μ' (elem e j) (f j)) :
    ∃ μ', put g dyn z w.refs e μ = (.ok (), μ') ∧ SameOutside (InView w t) μ μ' ∧ ElemsAre μ' w t fun j => putVal g (val j) (f j) := by
  cases g with
  | none =>
    obtain ⟨μ', h1, h2, h3⟩ := C27_view dyn z hz w t hw hd e se he hm μ (fun j hj => by simp [hval j hj]) f fun j hj μ' ho => hf j hj μ' fun p hp => ho p fun h => hp h.1
    exact ⟨μ', h1, h3, h2⟩
  | some g =>
    obtain ⟨μ', h1, h2, h3⟩ := C28_prefix g dyn z hz w.refs t [] (address w) μ ⟨refs_shape hw, hd, fun j _ μ' _ => refers_refs μ' w j⟩ e se he (by simpa using hm) val hval f
      (fun j hj μ' ho => hf j (by simpa using hj) μ' ho)
    refine ⟨μ', h1, h2, fun i hi => ?_⟩
    rw [h3 i hi]
    simp [rowMajor, putVal]

/-- A statement on a part `w` of an array `x`. The element `j` of the part is the element `φ j` of the array. -/
theorem put_part (g : Option (V → V → V)) (dyn : Bool) (z : List Int) (hz : ∀ i ∈ z, i = 0) (x : View) (s : List Nat) (hd : Distinct x s) (w : View) (t : List Nat) (hw : Shaped w (t.map some))
    (φ : List Int → List Int) (hφ : ∀ j, Valid t j → Valid s (φ j) ∧ address w j = address x (φ j)) (hinj : ∀ i j, Valid t i → Valid t j → φ i = φ j → i = j)
    (e : Iter (Act V) (Lv V)) (he : HasShape e (t.map some)) (μ : Mem V) (val F : List Int → V) (hval : ElemsAre μ x s val)
    (hF : ∀ j, Valid t j → ∀ μ', SameOutside (InView x s) μ μ' → Reads μ' (elem e j) (F (φ j))) :
    ∃ μ' val', put g dyn z w.refs e μ = (.ok (), μ') ∧ SameOutside (InView x s) μ μ' ∧ ElemsAre μ' x s val' ∧
      (∀ j, Valid t j → val' (φ j) = putVal g (val (φ j)) (F (φ j))) ∧ (∀ i, Valid s i → (∀ j, Valid t j → φ j ≠ i) → val' i = val i) := by
  classical
  have hsub : ∀ p, InView w t p → InView x s p := by
    rintro p ⟨j, hj, rfl⟩
    exact ⟨φ j, (hφ j hj).1, (hφ j hj).2⟩
  obtain ⟨μ', h1, h2, h3⟩ := put_view g dyn z hz w t hw (by
      intro i j hi hj h
      rw [(hφ i hi).2, (hφ j hj).2] at h
      exact hinj i j hi hj (hd _ _ (hφ i hi).1 (hφ j hj).1 h)) e (t.map some) he (merge_same _) μ (fun j => val (φ j)) (fun j => F (φ j))
    (fun j hj => by rw [(hφ j hj).2]; exact hval _ (hφ j hj).1) (fun j hj μ' ho => hF j hj μ' fun p hp => ho p fun h => hp (hsub p h))
  have hin : ∀ j, Valid t j → μ' (address x (φ j)) = some (putVal g (val (φ j)) (F (φ j))) := by
    intro j hj
    have := h3 j hj
    rwa [(hφ j hj).2] at this
  refine ⟨μ', fun i => if ∃ j, Valid t j ∧ φ j = i then putVal g (val i) (F i) else val i, h1, fun p hp => h2 p fun h => hp (hsub p h), ?_, ?_, ?_⟩
  · intro i hi
    beta_reduce
    by_cases h : ∃ j, Valid t j ∧ φ j = i
    · rw [if_pos h]
      obtain ⟨j, hj, rfl⟩ := h
      exact hin j hj
    · rw [if_neg h, h2 _ ?_, hval i hi]
      rintro ⟨j, hj, e⟩
      rw [(hφ j hj).2] at e
      exact h ⟨j, hj, (hd _ _ hi (hφ j hj).1 e).symm⟩
  · intro j hj
    exact if_pos ⟨j, hj, rfl⟩
  · intro i _ h
    refine if_neg ?_
    rintro ⟨j, hj, e⟩
    exact h j hj e

theorem set_same {i : List Int} {k : Nat} (hk : k < i.length) : i.set k (i.getD k 0) = i := by
  rw [← List.getElem_eq_getD (h := hk), List.set_getElem_self]

theorem getD_set_self {i : List Int} {k : Nat} (hk : k < i.length) (a : Int) : (i.set k a).getD k 0 = a := by
  rw [← List.getElem_eq_getD (h := by simpa using hk), List.getElem_set_self]

theorem putAxis_getD {k : Nat} {a : Int} {j : List Int} (h : k ≤ j.length) : (putAxis k a j).getD k 0 = a := by
  simp [putAxis, List.getD_eq_getElem?_getD, List.getElem?_append_right, h]

theorem putAxis_set {k : Nat} {a b : Int} {j : List Int} (h : k ≤ j.length) : (putAxis k a j).set k b = putAxis k b j := by
  rw [putAxis, putAxis, List.set_append_right _ _ (by simp)]
  simp [h]

theorem length_erase {s : List Nat} {k : Nat} (hk : k < s.length) {j : List Int} (hj : Valid (s.eraseIdx k) j) : k ≤ j.length := by
  rw [hj.length, List.length_eraseIdx_of_lt hk]
  omega

/-- Two statements, on all but one of the positions of an axis and on the one that is left. -/
theorem roll_parts (g : Option (V → V → V)) (dyn : Bool) (z : List Int) (hz : ∀ i ∈ z, i = 0) (x a : View) (s : List Nat) (hx : Shaped x (s.map some)) (hd : Distinct x s) (ha : Shaped a (s.map some))
    (k : Nat) (hk : k < s.length) (μ : Mem V) (vx va : List Int → V) (hvx : ElemsAre μ x s vx) (hva : ElemsAre μ a s va) (hap : ∀ i, Valid s i → ¬ InView x s (address a i))
    (o1 o2 p1 p2 : Int) (h1 : ∀ i : Int, 0 ≤ i → i < s[k] - 1 → 0 ≤ o1 + i ∧ o1 + i < s[k] ∧ 0 ≤ o2 + i ∧ o2 + i < s[k] ∧ o1 + i ≠ p1) (h2 : 0 ≤ p1 ∧ p1 < s[k]) (h3 : 0 ≤ p2 ∧ p2 < s[k])
    (h4 : ∀ i : Int, 0 ≤ i → i < s[k] → i ≠ p1 → 0 ≤ i - o1 ∧ i - o1 < s[k] - 1) (nb : Int → Int) (h5 : ∀ i : Int, 0 ≤ i → i < s[k] - 1 → nb (o1 + i) = o2 + i) (h6 : nb p1 = p2)
    (is1 is2 : List Sub) (js1 js2 : List Sub) (A : View)
    (e1 : x.from is1 = x.from [.dots (some k), .iota [(.const ((s[k] - 1 : Nat) : Int), .const 1)] (.const o1)])
    (e2 : A.from js1 = a.from [.dots (some k), .iota [(.const ((s[k] - 1 : Nat) : Int), .const 1)] (.const o2)])
    (e3 : x.from is2 = x.from [.dots (some k), .scalar (.const p1)]) (e4 : A.from js2 = a.from [.dots (some k), .scalar (.const p2)]) :
    ∃ μ', (do putSlice g dyn z x is1 A js1; putSlice g dyn z x is2 A js2 : Act V Unit) μ = (.ok (), μ') ∧ SameOutside (InView x s) μ μ' ∧
      ElemsAre μ' x s fun i => putVal g (vx i) (va (i.set k (nb (i.getD k 0)))) := by
  have hlen : ∀ {i}, Valid s i → k < i.length := fun hi => by rw [hi.length]; exact hk
  have hset : ∀ (i : List Int) (b c : Int), (i.set k b).set k c = i.set k c := fun i b c => List.set_set ..
  have hm : ((s[k] - 1 : Nat) : Int) = s[k] - 1 := by omega
  have hvs : ∀ {j}, Valid (s.set k (s[k] - 1)) j → 0 ≤ j.getD k 0 ∧ j.getD k 0 < s[k] - 1 ∧ (∀ b : Int, 0 ≤ b → b < s[k] → Valid s (j.set k b)) ∧ k < j.length := by
    intro j hj
    have hk' : k < (s.set k (s[k] - 1)).length := by simpa using hk
    have := valid_axis hk' hj
    rw [List.getElem_set_self] at this
    refine ⟨this.1, by omega, ?_, by rw [hj.length]; exact hk'⟩
    intro b b1 b2
    have := valid_set hk' hj s[k] b ⟨b1, b2⟩
    rwa [List.set_set, List.set_getElem_self] at this
  obtain ⟨w1, w2, w3, w4⟩ := axis_range hx hk (s[k] - 1) o1 fun i hi => by have := h1 i (by omega) (by omega); omega
  obtain ⟨b1, b2, b3, b4⟩ := axis_range ha hk (s[k] - 1) o2 fun i hi => by have := h1 i (by omega) (by omega); omega
  obtain ⟨u1, u2, u3, u4⟩ := axis_at hx hk p1 h2
  obtain ⟨c1, c2, c3, c4⟩ := axis_at ha hk p2 h3
  have hread : ∀ {μ1 : Mem V}, SameOutside (InView x s) μ μ1 → ∀ i, Valid s i → μ1 (address a i) = some (va i) := fun ho i hi => by rw [ho _ (hap i hi), hva i hi]
  obtain ⟨μ1, val1, r1, r2, r3, r4, r5⟩ := put_part g dyn z hz x s hd w1 _ w3 (fun j => j.set k (o1 + j.getD k 0))
    (by
      intro j hj
      obtain ⟨j1, j2, j3, _⟩ := hvs hj
      have := h1 _ j1 j2
      exact ⟨j3 _ this.1 this.2.1, w4 j hj⟩)
    (by
      intro i j hi hj e
      obtain ⟨_, _, _, i4⟩ := hvs hi
      obtain ⟨_, _, _, j4⟩ := hvs hj
      beta_reduce at e
      have e' : o1 + i.getD k 0 = o1 + j.getD k 0 := by
        have := congrArg (fun l => l.getD k 0) e
        simpa only [getD_set_self i4, getD_set_self j4] using this
      rw [← set_same i4, ← set_same j4, ← hset i (o1 + i.getD k 0), e, hset, show i.getD k 0 = j.getD k 0 by omega])
    b1.refs (refs_shape b3) μ vx (fun i => va (i.set k (nb (i.getD k 0)))) hvx
    (by
      intro j hj μ' ho
      obtain ⟨j1, j2, j3, j4⟩ := hvs hj
      have := h1 _ j1 j2
      refine reads_refs ?_
      rw [b4 j hj, hread ho _ (j3 _ this.2.2.1 this.2.2.2.1)]
      beta_reduce
      rw [getD_set_self j4, hset, h5 _ j1 j2])
  obtain ⟨μ2, val2, q1, q2, q3, q4, q5⟩ := put_part g dyn z hz x s hd u1 _ u3 (putAxis k p1) (fun j hj => ⟨valid_putAxis hk hj h2, u4 j hj⟩)
    (fun i j hi hj e => putAxis_inj e (length_erase hk hi) (length_erase hk hj)) c1.refs (refs_shape c3) μ1 val1 (fun i => va (i.set k (nb (i.getD k 0)))) r3
    (by
      intro j hj μ' ho
      refine reads_refs ?_
      rw [c4 j hj, hread (outside_trans r2 ho (fun _ h => h) fun _ h => h) _ (valid_putAxis hk hj h3), putAxis_getD (length_erase hk hj), h6, putAxis_set (length_erase hk hj)])
  refine ⟨μ2, ?_, outside_trans r2 q2 (fun _ h => h) (fun _ h => h), ?_⟩
  · simp only [putSlice, e1, e2, e3, e4, bind_assoc]
    rw [lift_bind w2, lift_bind b2, act_bind_ok r1, lift_bind u2, lift_bind c2, q1]
  · intro i hi
    rw [q3 i hi]
    beta_reduce
    congr 1
    have hi' := valid_axis hk hi
    have hl := hlen hi
    by_cases hp : i.getD k 0 = p1
    · have hv := valid_erase hk hi
      have e : putAxis k p1 (i.eraseIdx k) = i := by rw [putAxis_erase hk hi, ← hp, set_same hl]
      have := q4 _ hv
      rw [e] at this
      rw [this, r5 i hi ?_]
      intro j hj h
      obtain ⟨j1, j2, j3, j4⟩ := hvs hj
      beta_reduce at h
      rw [← h, getD_set_self j4] at hp
      exact (h1 _ j1 j2).2.2.2.2 hp
    · rw [q5 i hi ?_]
      · have h' := h4 _ hi'.1 hi'.2 hp
        have hv : Valid (s.set k (s[k] - 1)) (i.set k (i.getD k 0 - o1)) := valid_set hk hi _ _ ⟨h'.1, by omega⟩
        have := r4 _ hv
        beta_reduce at this
        rw [getD_set_self hl, hset, show o1 + (i.getD k 0 - o1) = i.getD k 0 by omega, set_same hl] at this
        exact this
      · intro j hj h
        rw [← h, putAxis_getD (length_erase hk hj)] at hp
        exact hp rfl

theorem roll_next (g : Option (V → V → V)) (dyn : Bool) (z : List Int) (hz : ∀ i ∈ z, i = 0) (x a : View) (s : List Nat) (hx : Shaped x (s.map some)) (hd : Distinct x s) (ha : Shaped a (s.map some))
    (k : Nat) (hk : k < s.length) (hn : 0 < s[k]) (μ : Mem V) (vx va : List Int → V) (hvx : ElemsAre μ x s vx) (hva : ElemsAre μ a s va) (hap : ∀ i, Valid s i → ¬ InView x s (address a i))
    (A : View) (pre : List Sub) (hpre : ∀ is, A.from (pre ++ is) = a.from is) :
    ∃ μ', rollNext g dyn z k x A pre μ = (.ok (), μ') ∧ SameOutside (InView x s) μ μ' ∧ ElemsAre μ' x s fun i => putVal g (vx i) (va (after s[k] k i)) := by
  have hlx := hx.length_eq
  have hla := ha.length_eq
  simp only [List.length_map] at hlx hla
  exact roll_parts g dyn z hz x a s hx hd ha k hk μ vx va hvx hva hap 0 1 (s[k] - 1) 0 (by omega) (by omega) (by omega) (by omega) (fun i => if i + 1 < s[k] then i + 1 else 0)
    (by intro i i1 i2; beta_reduce; rw [if_pos (by omega)]; omega) (by beta_reduce; rw [if_neg (by omega)]) _ _ _ _ A
    (by rw [from_alls _ _ _ (by omega)]; exact from_iotaLess hx hk 1 hn 0) (by rw [List.append_assoc, hpre, from_alls _ _ _ (by omega)]; exact from_iotaLess ha hk 1 hn 1)
    (by rw [from_alls _ _ _ (by omega)]; exact from_lenLess hx hk 1) (by rw [List.append_assoc, hpre, from_alls _ _ _ (by omega)])

theorem roll_prev (g : Option (V → V → V)) (dyn : Bool) (z : List Int) (hz : ∀ i ∈ z, i = 0) (x a : View) (s : List Nat) (hx : Shaped x (s.map some)) (hd : Distinct x s) (ha : Shaped a (s.map some))
    (k : Nat) (hk : k < s.length) (hn : 0 < s[k]) (μ : Mem V) (vx va : List Int → V) (hvx : ElemsAre μ x s vx) (hva : ElemsAre μ a s va) (hap : ∀ i, Valid s i → ¬ InView x s (address a i))
    (A : View) (pre : List Sub) (hpre : ∀ is, A.from (pre ++ is) = a.from is) :
    ∃ μ', rollPrev g dyn z k x A pre μ = (.ok (), μ') ∧ SameOutside (InView x s) μ μ' ∧ ElemsAre μ' x s fun i => putVal g (vx i) (va (before s[k] k i)) := by
  have hlx := hx.length_eq
  have hla := ha.length_eq
  simp only [List.length_map] at hlx hla
  exact roll_parts g dyn z hz x a s hx hd ha k hk μ vx va hvx hva hap 1 0 0 (s[k] - 1) (by omega) (by omega) (by omega) (by omega) (fun i => if 0 < i then i - 1 else s[k] - 1)
    (by intro i i1 i2; beta_reduce; rw [if_pos (by omega)]; omega) (by beta_reduce; rw [if_neg (by omega)]) _ _ _ _ A
    (by rw [from_alls _ _ _ (by omega)]; exact from_iotaLess hx hk 1 hn 1) (by rw [List.append_assoc, hpre, from_alls _ _ _ (by omega)]; exact from_iotaLess ha hk 1 hn 0)
    (by rw [from_alls _ _ _ (by omega)]) (by rw [List.append_assoc, hpre, from_alls _ _ _ (by omega)]; exact from_lenLess ha hk 1)

/-- C112. `x(..., iota(len-1)) = a(..., iota(len-1, 1))` and then `x(..., len-1) = a(..., 0)`, or both with `OP=`, on any axis: each element takes the one after it around the axis. -/
theorem C112_next (g : Option (V → V → V)) (dyn : Bool) (z : List Int) (hz : ∀ i ∈ z, i = 0) (x a : View) (s : List Nat) (hx : Shaped x (s.map some)) (hd : Distinct x s) (ha : Shaped a (s.map some))
    (k : Nat) (hk : k < s.length) (hn : 0 < s[k]) (μ : Mem V) (vx va : List Int → V) (hvx : ElemsAre μ x s vx) (hva : ElemsAre μ a s va) (hap : ∀ i, Valid s i → ¬ InView x s (address a i)) :
    ∃ μ', rollNext g dyn z k x a [] μ = (.ok (), μ') ∧ SameOutside (InView x s) μ μ' ∧ ElemsAre μ' x s fun i => putVal g (vx i) (va (after s[k] k i)) :=
  roll_next g dyn z hz x a s hx hd ha k hk hn μ vx va hvx hva hap a [] fun _ => rfl

/-- C112. `x(..., iota(len-1, 1)) = a(..., iota(len-1))` and then `x(..., 0) = a(..., len-1)`, or both with `OP=`, on any axis: each element takes the one before it around the axis. -/
theorem C112_prev (g : Option (V → V → V)) (dyn : Bool) (z : List Int) (hz : ∀ i ∈ z, i = 0) (x a : View) (s : List Nat) (hx : Shaped x (s.map some)) (hd : Distinct x s) (ha : Shaped a (s.map some))
    (k : Nat) (hk : k < s.length) (hn : 0 < s[k]) (μ : Mem V) (vx va : List Int → V) (hvx : ElemsAre μ x s vx) (hva : ElemsAre μ a s va) (hap : ∀ i, Valid s i → ¬ InView x s (address a i)) :
    ∃ μ', rollPrev g dyn z k x a [] μ = (.ok (), μ') ∧ SameOutside (InView x s) μ μ' ∧ ElemsAre μ' x s fun i => putVal g (vx i) (va (before s[k] k i)) :=
  roll_prev g dyn z hz x a s hx hd ha k hk hn μ vx va hvx hva hap a [] fun _ => rfl

/-- C112. If the axis is empty, then the check fails and nothing changes. -/
theorem C112_empty (g : Option (V → V → V)) (dyn : Bool) (z : List Int) (x a : View) (s : List Nat) (hx : Shaped x (s.map some)) (k : Nat) (hk : k < s.length) (hn : s[k] = 0) (μ : Mem V) :
    rollNext g dyn z k x a [] μ = (.error .check, μ) ∧ rollPrev g dyn z k x a [] μ = (.error .check, μ) := by
  obtain ⟨d, ds, e1, e2, _⟩ := dims_drop hx hk
  have hlx := hx.length_eq
  simp only [List.length_map] at hlx
  have key : ∀ o, x.from (alls k ++ [iotaLess 1 o]) = .error .check := by
    intro o
    rw [from_alls _ _ _ (by omega), from_same (is' := [.dots (some k), .iota [(.const (-1), .const 1)] (.const o)])]
    · simp only [View.from, fromb, e1]
      rw [if_neg (by omega)]
      simp [iotaDims, val_const, bind, Except.bind, pure, Except.pure]
    · refine .dots ?_
      rw [e1]
      refine .iota ?_ (val_const _ _) (.nil _)
      rw [lenLess_val, e2, hn]
      rfl
  constructor
  · simp only [rollNext, putSlice, key, bind_assoc]
    rfl
  · simp only [rollPrev, putSlice, key, bind_assoc]
    rfl

end

/-! ## A case -/

theorem valid_first {n : Nat} {s : List Nat} {i : List Int} : Valid (n :: s) i ↔ ∃ a j, i = a :: j ∧ 0 ≤ a ∧ a < n ∧ Valid s j := by
  cases i with
  | nil => simp [Valid]
  | cons a j => simp [Valid]

theorem valid_none {i : List Int} : Valid [] i ↔ i = [] := by
  cases i <;> simp [Valid]

/-- Each place holds its number. -/
def allMem : Mem Int := fun p => some p

/-- A 2x3 array at `p`. -/
def rollArr (p : Int) : View := ⟨[⟨2, 3⟩, ⟨3, 1⟩], p⟩

theorem rollArr_address (p a b : Int) : address (rollArr p) [a, b] = p + (3 * a + b) := by simp [rollArr, address, dot]; omega

theorem roll_case : Shaped (rollArr 0) ([2, 3].map some) ∧ Distinct (rollArr 0) [2, 3] ∧ ElemsAre allMem (rollArr 0) [2, 3] (address (rollArr 0)) ∧
    ∀ i, Valid [2, 3] i → ¬ InView (rollArr 0) [2, 3] (address (rollArr 10) i) := by
  refine ⟨shaped_nat.mpr rfl, ?_, fun _ _ => rfl, ?_⟩
  · intro i j hi hj e
    simp only [valid_first, valid_none] at hi hj
    obtain ⟨a, _, rfl, a1, a2, b, _, rfl, b1, b2, rfl⟩ := hi
    obtain ⟨c, _, rfl, c1, c2, d, _, rfl, d1, d2, rfl⟩ := hj
    rw [rollArr_address, rollArr_address] at e
    simp only [List.cons.injEq, and_true]
    omega
  · rintro i hi ⟨j, hj, e⟩
    simp only [valid_first, valid_none] at hi hj
    obtain ⟨a, _, rfl, a1, a2, b, _, rfl, b1, b2, rfl⟩ := hi
    obtain ⟨c, _, rfl, c1, c2, d, _, rfl, d1, d2, rfl⟩ := hj
    rw [rollArr_address, rollArr_address] at e
    omega

/-- `x(all, iota(len-1)) = a(all, iota(len-1, 1)); x(all, len-1) = a(all, 0)` with `a` {{10 11 12} {13 14 15}} gives {{11 12 10} {14 15 13}}. -/
example : ∃ μ', rollNext none true [] 1 (rollArr 0) (rollArr 10) [] allMem = (.ok (), μ') ∧ [0, 1, 2, 3, 4, 5].map μ' = [11, 12, 10, 14, 15, 13].map some := by
  obtain ⟨h1, h2, h3, h4⟩ := roll_case
  obtain ⟨μ', r1, _, r3⟩ := C112_next none true [] (by simp) (rollArr 0) (rollArr 10) [2, 3] h1 h2 (shaped_nat.mpr rfl) 1 (by simp) (by simp) allMem _ (address (rollArr 10)) h3 (fun _ _ => rfl) h4
  refine ⟨μ', r1, ?_⟩
  have v : ∀ a b : Int, 0 ≤ a → a < 2 → 0 ≤ b → b < 3 → μ' (3 * a + b) = some (10 + (3 * a + if b + 1 < 3 then b + 1 else 0)) := by
    intro a b a1 a2 b1 b2
    have := r3 [a, b] ⟨a1, a2, b1, b2, trivial⟩
    simp only [rollArr_address, putVal, after, List.set_cons_succ, List.set_cons_zero, List.getD_cons_succ, List.getD_cons_zero, Int.zero_add, List.getElem_cons_succ, List.getElem_cons_zero] at this
    simpa using this
  have v0 := v 0 0 (by omega) (by omega) (by omega) (by omega)
  have v1 := v 0 1 (by omega) (by omega) (by omega) (by omega)
  have v2 := v 0 2 (by omega) (by omega) (by omega) (by omega)
  have v3 := v 1 0 (by omega) (by omega) (by omega) (by omega)
  have v4 := v 1 1 (by omega) (by omega) (by omega) (by omega)
  have v5 := v 1 2 (by omega) (by omega) (by omega) (by omega)
  norm_num at v0 v1 v2 v3 v4 v5
  simp [v0, v1, v2, v3, v4, v5]

/-- The same the other way, with `+=`. -/
example : ∃ μ', rollPrev (some (· + ·)) true [] 0 (rollArr 0) (rollArr 10) [] allMem = (.ok (), μ') :=
  have ⟨h1, h2, h3, h4⟩ := roll_case
  have ⟨μ', r1, _⟩ := C112_prev (some (· + ·)) true [] (by simp) (rollArr 0) (rollArr 10) [2, 3] h1 h2 (shaped_nat.mpr rfl) 0 (by simp) (by simp) allMem _ (address (rollArr 10)) h3 (fun _ _ => rfl) h4
  ⟨μ', r1⟩

/-- An empty axis. -/
example : rollNext none true [] 0 ⟨[⟨0, 1⟩], 0⟩ ⟨[⟨0, 1⟩], 10⟩ [] allMem = (.error .check, allMem) :=
  (C112_empty none true [] _ _ [0] (shaped_nat.mpr rfl) 0 (by simp) rfl allMem).1

end Ra.Props
