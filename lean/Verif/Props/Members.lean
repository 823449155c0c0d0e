import Verif.Model.Members
import Verif.Props.Assign
import Verif.Props.Complex
import Verif.Props.Fill
/-!
# C128: members of the elements of an array
-/

namespace Ra.Spec

/-- The array of the members number `k` of the elements of `v`, which have `w` members each. -/
def memberView (v : View) (w : Nat) (k : Int) : View := ⟨v.dims.map fun d => ⟨d.len, w * d.step⟩, w * v.cp + k⟩

section
variable {V : Type}

/-- The object at `p` has members `l`. -/
def ObjectAt (μ : Mem V) (p : Int) (l : List V) : Prop := ∀ m : Nat, m < l.length → μ (l.length * p + m) = l[m]?

end
end Ra.Spec

namespace Ra.Props
open Spec

section
variable {V : Type}

theorem member_refers {μ : Mem V} {e : Iter (Act V) (Lv V)} {j : List Int} {p : Int} (h : Refers μ (elem e j) p) (w : Nat) (k : Int) : Refers μ (elem (members w k e) j) (w * p + k) := by
  show mapOp (memberOp w k) [elem e j] μ = _
  rw [mapOp, List.mapM_cons, bind_assoc, id, act_bind_ok h]
  rfl

theorem memberView_address (v : View) (w : Nat) (k : Int) (j : List Int) : address (memberView v w k) j = w * address v j + k := by
  simp only [address, memberView, List.map_map]
  rw [show (v.dims.map (Dim.step ∘ fun d => (⟨d.len, w * d.step⟩ : Dim))) = (v.dims.map Dim.step).map fun x => x * (w : Int) by rw [List.map_map]; exact List.map_congr_left fun d _ => mul_comm _ _, dot_scale]
  ring

/-- C128. If `a` is an array of objects then `map(&T::m, a)` has the shape of `a`, and its elements are those of the array of the members. -/
theorem C128_view (v : View) (s : List Nat) (hv : Shaped v (s.map some)) (w k : Nat) :
    HasShape (members (V := V) w k v.refs) (s.map some) ∧ Shaped (memberView v w k) (s.map some) ∧ ∀ j, elem (members (V := V) w k v.refs) j = elem (memberView v w k).refs j := by
  refine ⟨shape_one (refs_shape hv), ?_, fun j => ?_⟩
  · refine shaped_nat.2 ((shaped_nat.1 hv).symm ▸ ?_)
    simp [memberView]
  · rw [elem_refs, memberView_address]
    funext μ
    exact member_refers (by rw [elem_refs]; rfl) w k

/-- C128. So `map(&T::m, a) = x` and `map(&T::m, a) OP= x` are the assignment or the update of the array of the members. -/
theorem C128_same (dyn : Bool) (z : List Int) (hz : ∀ i ∈ z, i = 0) (v : View) (sv : List Nat) (hv : Shaped v (sv.map some)) (w k : Nat) (x : Iter (Act V) (Lv V)) (sx : List Length) (hx : HasShape x sx) (s : List Nat)
    (hm : Merge [sv.map some, sx] (s.map some)) :
    assign dyn z (members w k v.refs) x = assign dyn z (memberView v w k).refs x ∧ ∀ g, update g dyn z (members w k v.refs) x = update g dyn z (memberView v w k).refs x := by
  obtain ⟨h1, h2, h3⟩ := C128_view (V := V) v sv hv w k
  refine ⟨?_, fun g => ?_⟩
  · rw [assign, assign, run_forAll dyn z hz _ _ x _ sx s h1 hx hm, run_forAll dyn z hz _ _ x _ sx s (refs_shape h2) hx hm]
    simp only [h3]
  · rw [update, update, run_forAll dyn z hz _ _ x _ sx s h1 hx hm, run_forAll dyn z hz _ _ x _ sx s (refs_shape h2) hx hm]
    simp only [h3]

theorem member_place {w : Nat} {k m : Nat} (hk : k < w) (hm : m < w) {p q : Int} (h : (w : Int) * p + k = w * q + m) : p = q ∧ k = m := by
  have h1 := congrArg (· / (w : Int)) h
  have h2 := congrArg (· % (w : Int)) h
  simp only [Int.mul_add_ediv_left _ _ (show (w : Int) ≠ 0 by omega), Int.mul_add_emod_self_left] at h1 h2
  rw [Int.emod_eq_of_lt (by omega) (by omega), Int.emod_eq_of_lt (by omega) (by omega)] at h2
  rw [Int.ediv_eq_zero_of_lt (by omega) (by omega), Int.ediv_eq_zero_of_lt (by omega) (by omega)] at h1
  omega

/-- C128. `map(&T::m, e) = x`, where `e` gives references to objects, all different, sets member `m` of each of them to the element of `x`. The other members keep their values, and so does anything else. -/
theorem C128_assign (dyn : Bool) (z : List Int) (hz : ∀ i ∈ z, i = 0) (w k : Nat) (hk : k < w) (e x : Iter (Act V) (Lv V)) (s : List Nat) (sx : List Length) (he : HasShape e (s.map some)) (hx : HasShape x sx)
    (hm : Merge [s.map some, sx] (s.map some)) (μ : Mem V) (A : List Int → Int) (hinj : ∀ i j, Valid s i → Valid s j → A i = A j → i = j) (c : List Int → List V) (hw : ∀ j, Valid s j → (c j).length = w)
    (hc : ∀ j, Valid s j → ObjectAt μ (A j) (c j)) (f : List Int → V)
    (hA : ∀ j, Valid s j → ∀ μ', SameOutside (fun p => ∃ i, Valid s i ∧ p = w * A i + k) μ μ' → Refers μ' (elem e j) (A j))
    (hf : ∀ j, Valid s j → ∀ μ', SameOutside (fun p => ∃ i, Valid s i ∧ p = w * A i + k) μ μ' → Reads μ' (elem x j) (f j)) :
    ∃ μ', assign dyn z (members w k e) x μ = (.ok (), μ') ∧ (∀ j, Valid s j → ObjectAt μ' (A j) ((c j).set k (f j))) ∧
      (∀ p, (∀ j, Valid s j → p ≠ w * A j + k) → μ' p = μ p) ∧ ∀ p l, l.length = w → (∀ j, Valid s j → p ≠ A j) → ObjectAt μ p l → ObjectAt μ' p l := by
  have hsub : ∀ j μ', SameOutside (fun p => ∃ i, Valid s i ∧ i ≠ j ∧ p = w * A i + k) μ μ' → SameOutside (fun p => ∃ i, Valid s i ∧ p = w * A i + k) μ μ' :=
    fun j μ' h p hp => h p fun ⟨i, h1, _, h3⟩ => hp ⟨i, h1, h3⟩
  obtain ⟨μ', h1, h2, h3⟩ := C27_assign dyn z hz (members w k e) x s sx (shape_one he) hx hm μ (fun j => w * A j + k) f
    (fun i j hi hj h => hinj i j hi hj (member_place hk hk h).1)
    (fun j hj => by
      have := hc j hj k (by rw [hw j hj]; exact hk)
      rw [hw j hj] at this
      rw [this, List.getElem?_eq_getElem (by rw [hw j hj]; exact hk)]
      rfl)
    (fun j hj μ' h => member_refers (hA j hj μ' (hsub j μ' h)) w k) (fun j hj μ' h => hf j hj μ' (hsub j μ' h))
  refine ⟨μ', h1, fun j hj m hm => ?_, fun p hp => h3 p fun ⟨j, hj, h⟩ => hp j hj h, fun p l hl hp ho m hm => ?_⟩
  · rw [List.length_set, hw j hj] at hm ⊢
    by_cases hkm : m = k
    · subst hkm
      rw [h2 j hj, List.getElem?_set_self (by rw [hw j hj]; exact hk)]
    · rw [List.getElem?_set_ne (Ne.symm hkm), h3 _ fun ⟨i, hi, h⟩ => hkm (member_place hm hk h).2]
      have := hc j hj m (by rw [hw j hj]; exact hm)
      rwa [hw j hj] at this
  · rw [hl] at hm ⊢
    rw [h3 _ fun ⟨i, hi, h⟩ => hp i hi (member_place hm hk h).1]
    have := ho m (by rw [hl]; exact hm)
    rwa [hl] at this

/-- C128. `map(&T::m, e) OP= x`, where `e` gives references to objects that may be repeated. Each member `m` is updated with each of the elements of `x` that meet it, in row-major order. Nothing else changes. -/
theorem C128_update (g : V → V → V) (dyn : Bool) (z : List Int) (hz : ∀ i ∈ z, i = 0) (w k : Nat) (hk : k < w) (e x : Iter (Act V) (Lv V)) (s : List Nat) (se sx : List Length) (he : HasShape e se) (hx : HasShape x sx)
    (hm : Merge [se, sx] (s.map some)) (μ : Mem V) (A : List Int → Int) (hmem : ∀ j, Valid s j → (μ (w * A j + k)).isSome) (f : List Int → V)
    (hA : ∀ j, Valid s j → ∀ μ', SameOutside (fun p => ∃ i, Valid s i ∧ p = w * A i + k) μ μ' → Refers μ' (elem e j) (A j))
    (hf : ∀ j, Valid s j → ∀ μ', SameOutside (fun p => ∃ i, Valid s i ∧ p = w * A i + k) μ μ' → Reads μ' (elem x j) (f j)) :
    ∃ μ', update g dyn z (members w k e) x μ = (.ok (), μ') ∧
      (∀ p, μ' (w * p + k) = (μ (w * p + k)).map fun y => (((rowMajor s).filter fun j => A j = p).map f).foldl g y) ∧ ∀ p (m : Nat), m < w → m ≠ k → μ' (w * p + m) = μ (w * p + m) := by
  obtain ⟨μ', h1, h2⟩ := C28_update g dyn z hz (members w k e) x se sx s (shape_one he) hx hm μ (fun j => w * A j + k) f hmem (fun j hj μ' h => member_refers (hA j hj μ' h) w k) hf
  refine ⟨μ', h1, fun p => ?_, fun p m hmw hmk => ?_⟩
  · rw [h2]
    congr; funext y; congr; funext j
    exact decide_eq_decide.2 ⟨fun h => (member_place hk hk h).1, fun h => by rw [h]⟩
  · rw [h2, List.filter_eq_nil_iff.2 fun j _ => by
      rw [decide_eq_true_eq]
      exact fun h => hmk (member_place hk hmw h).2.symm]
    simp

/-- C128. Assignments to different members may be done in any order, if the right hand sides don't depend on them. -/
theorem C128_order (dyn : Bool) (z : List Int) (hz : ∀ i ∈ z, i = 0) (w k m : Nat) (hk : k < w) (hmw : m < w) (hkm : k ≠ m) (v : View) (s : List Nat) (hv : Shaped v (s.map some)) (hd : Distinct v s)
    (x y : Iter (Act V) (Lv V)) (sx sy : List Length) (hx : HasShape x sx) (hy : HasShape y sy) (hmx : Merge [s.map some, sx] (s.map some)) (hmy : Merge [s.map some, sy] (s.map some)) (μ : Mem V)
    (c : List Int → List V) (hw : ∀ j, Valid s j → (c j).length = w) (hc : ∀ j, Valid s j → ObjectAt μ (address v j) (c j)) (f g : List Int → V)
    (hf : ∀ j, Valid s j → ∀ μ', SameOutside (fun p => ∃ i, Valid s i ∧ (p = w * address v i + k ∨ p = w * address v i + m)) μ μ' → Reads μ' (elem x j) (f j))
    (hg : ∀ j, Valid s j → ∀ μ', SameOutside (fun p => ∃ i, Valid s i ∧ (p = w * address v i + k ∨ p = w * address v i + m)) μ μ' → Reads μ' (elem y j) (g j)) :
    ∃ μ', (do assign dyn z (members w k v.refs) x; assign dyn z (members w m v.refs) y : Act V Unit) μ = (.ok (), μ') ∧
      (do assign dyn z (members w m v.refs) y; assign dyn z (members w k v.refs) x : Act V Unit) μ = (.ok (), μ') ∧
      (∀ j, Valid s j → ObjectAt μ' (address v j) (((c j).set k (f j)).set m (g j))) := by
  have key : ∀ (k m : Nat) (hk : k < w) (hmw : m < w) (x y : Iter (Act V) (Lv V)) (sx sy : List Length) (hx : HasShape x sx) (hy : HasShape y sy) (hmx : Merge [s.map some, sx] (s.map some))
      (hmy : Merge [s.map some, sy] (s.map some)) (f g : List Int → V)
      (hf : ∀ j, Valid s j → ∀ μ', SameOutside (fun p => ∃ i, Valid s i ∧ (p = w * address v i + k ∨ p = w * address v i + m)) μ μ' → Reads μ' (elem x j) (f j))
      (hg : ∀ j, Valid s j → ∀ μ', SameOutside (fun p => ∃ i, Valid s i ∧ (p = w * address v i + k ∨ p = w * address v i + m)) μ μ' → Reads μ' (elem y j) (g j)),
      ∃ μ', (do assign dyn z (members w k v.refs) x; assign dyn z (members w m v.refs) y : Act V Unit) μ = (.ok (), μ') ∧
        (∀ j, Valid s j → ObjectAt μ' (address v j) (((c j).set k (f j)).set m (g j))) ∧ ∀ p, (∀ j, Valid s j → p ≠ w * address v j + k ∧ p ≠ w * address v j + m) → μ' p = μ p := by
    intro k m hk hmw x y sx sy hx hy hmx hmy f g hf hg
    obtain ⟨μ1, a1, a2, a3, _⟩ := C128_assign dyn z hz w k hk v.refs x s sx (refs_shape hv) hx hmx μ (address v) hd c hw hc f (fun j _ μ' _ => by rw [elem_refs]; rfl)
      (fun j hj μ' h => hf j hj μ' fun p hp => h p fun ⟨i, h1, h2⟩ => hp ⟨i, h1, .inl h2⟩)
    obtain ⟨μ2, b1, b2, b3, _⟩ := C128_assign dyn z hz w m hmw v.refs y s sy (refs_shape hv) hy hmy μ1 (address v) hd (fun j => (c j).set k (f j)) (fun j hj => by rw [List.length_set, hw j hj]) a2 g
      (fun j _ μ' _ => by rw [elem_refs]; rfl)
      (fun j hj μ' h => hg j hj μ' fun p hp => (h p fun ⟨i, h1, h2⟩ => hp ⟨i, h1, .inr h2⟩).trans (a3 p fun i hi h => hp ⟨i, hi, .inl h⟩))
    exact ⟨μ2, by rw [act_bind_ok a1]; exact b1, b2, fun p hp => (b3 p fun j hj => (hp j hj).2).trans (a3 p fun j hj => (hp j hj).1)⟩
  obtain ⟨μ1, a1, a2, a3⟩ := key k m hk hmw x y sx sy hx hy hmx hmy f g hf hg
  obtain ⟨μ2, b1, b2, b3⟩ := key m k hmw hk y x sy sx hy hx hmy hmx g f (fun j hj μ' h => hg j hj μ' fun p hp => h p fun ⟨i, h1, h2⟩ => hp ⟨i, h1, h2.symm⟩)
    (fun j hj μ' h => hf j hj μ' fun p hp => h p fun ⟨i, h1, h2⟩ => hp ⟨i, h1, h2.symm⟩)
  have : μ2 = μ1 := by
    funext p
    by_cases hp : ∃ j, Valid s j ∧ (p = w * address v j + k ∨ p = w * address v j + m)
    · obtain ⟨j, hj, hp⟩ := hp
      have h1 := a2 j hj
      have h2 := b2 j hj
      rw [List.set_comm _ _ (Ne.symm hkm)] at h2
      simp only [ObjectAt, List.length_set, hw j hj] at h1 h2
      rcases hp with rfl | rfl
      · rw [h1 k hk, h2 k hk]
      · rw [h1 m hmw, h2 m hmw]
    · rw [a3 p fun j hj => ⟨fun h => hp ⟨j, hj, .inl h⟩, fun h => hp ⟨j, hj, .inr h⟩⟩, b3 p fun j hj => ⟨fun h => hp ⟨j, hj, .inr h⟩, fun h => hp ⟨j, hj, .inl h⟩⟩]
  exact ⟨μ1, a1, by rw [b1, this], a2⟩

end

/-! ## The statements on an array -/

/-- Objects with 2 members in an array of shape {2, 3}, all of them 99 and 7, and 2 more numbers. -/
def objMem : Mem Int := fun p => if 0 ≤ p ∧ p < 12 then some (if p % 2 = 0 then 99 else 7) else if 12 ≤ p ∧ p < 14 then some p else none

def objArr : View := ⟨[⟨2, 3⟩, ⟨3, 1⟩], 0⟩

theorem objArr_shape : Shaped objArr [some 2, some 3] := shaped_nat (s := [2, 3]).mpr rfl

theorem objArr_address (a b : Int) : address objArr [a, b] = 3 * a + b := by simp [objArr, address, dot, mul_comm]

theorem objArr_distinct : Distinct objArr [2, 3] := by
  intro i j hi hj h
  obtain ⟨a, b, rfl, a1, a2, b1, b2⟩ := valid_two.1 hi
  obtain ⟨c, d, rfl, c1, c2, d1, d2⟩ := valid_two.1 hj
  rw [objArr_address, objArr_address] at h
  obtain rfl : a = c := by omega
  obtain rfl : b = d := by omega
  rfl

theorem objArr_objects (j : List Int) (hj : Valid [2, 3] j) : ObjectAt objMem (address objArr j) [99, 7] := by
  obtain ⟨a, b, rfl, a1, a2, b1, b2⟩ := valid_two.1 hj
  intro m hm
  have : m = 0 ∨ m = 1 := by simp at hm; omega
  rw [objArr_address]
  rcases this with rfl | rfl
  · simp only [objMem, List.length_cons, List.length_nil]
    rw [if_pos (by omega), if_pos (by omega)]
    rfl
  · simp only [objMem, List.length_cons, List.length_nil]
    rw [if_pos (by omega), if_neg (by omega)]
    rfl

/- `map(&example::b, ex) = 5` and then `+= 1`; the other members stay as they were. -/
example : ∃ μ', assign true [0, 0] (members 2 0 objArr.refs) (.scalar (pure (.val 5))) objMem = (.ok (), μ') ∧ (∀ j, Valid [2, 3] j → ObjectAt μ' (address objArr j) [5, 7]) ∧ μ' 12 = some 12 := by
  obtain ⟨μ', h1, h2, h3, _⟩ := C128_assign true [0, 0] (by simp) 2 0 (by omega) objArr.refs (.scalar (pure (.val 5))) [2, 3] [] (refs_shape objArr_shape) rfl (merge_nil _) objMem (address objArr) objArr_distinct
    (fun _ => [99, 7]) (fun _ _ => rfl) objArr_objects (fun _ => 5) (fun j _ μ' _ => by rw [elem_refs]; rfl) fun j _ μ' _ => reads_scalar μ' 5 j
  refine ⟨μ', h1, fun j hj => h2 j hj, h3 12 fun j hj => ?_⟩
  obtain ⟨a, b, rfl, a1, a2, b1, b2⟩ := valid_two.1 hj
  rw [objArr_address]
  omega

/- `map(&example::c, ex(0, all)) += 1` where all of the elements of a view are the same object. -/
example : ∃ μ', update (· + ·) true [0] (members 2 1 (View.refs ⟨[⟨3, 0⟩], 4⟩)) (.scalar (pure (.val 1))) objMem = (.ok (), μ') ∧ μ' 9 = some 10 ∧ μ' 8 = some 99 ∧ μ' 11 = some 7 := by
  obtain ⟨μ', h1, h2, h3⟩ := C128_update (· + ·) true [0] (by simp) 2 1 (by omega) (View.refs ⟨[⟨3, 0⟩], 4⟩) (.scalar (pure (.val 1))) [3] [some 3] [] (refs_shape (shaped_nat (s := [3]).mpr rfl)) rfl (merge_nil _) objMem
    (fun _ => 4) (fun _ _ => rfl) (fun _ => 1) (fun j hj μ' _ => by
      obtain ⟨j, rfl, _⟩ := valid_one.1 hj
      rw [elem_refs]
      simp [Refers, address, dot]
      rfl) fun j _ μ' _ => reads_scalar μ' 1 j
  exact ⟨μ', h1, (h2 4).trans (by decide +kernel), (h3 4 0 (by omega) (by omega)).trans (by decide), (h2 5).trans (by decide +kernel)⟩

/- Both members, in any order. -/
example : ∃ μ', (do assign true [0, 0] (members 2 0 objArr.refs) (.scalar (pure (.val 5))); assign true [0, 0] (members 2 1 objArr.refs) (.scalar (pure (.val 6))) : Act Int Unit) objMem = (.ok (), μ') ∧
    (do assign true [0, 0] (members 2 1 objArr.refs) (.scalar (pure (.val 6))); assign true [0, 0] (members 2 0 objArr.refs) (.scalar (pure (.val 5))) : Act Int Unit) objMem = (.ok (), μ') ∧
    ∀ j, Valid [2, 3] j → ObjectAt μ' (address objArr j) [5, 6] :=
  C128_order true [0, 0] (by simp) 2 0 1 (by omega) (by omega) (by omega) objArr [2, 3] objArr_shape objArr_distinct (.scalar (pure (.val 5))) (.scalar (pure (.val 6))) [] [] rfl rfl (merge_nil _) (merge_nil _) objMem
    (fun _ => [99, 7]) (fun _ _ => rfl) objArr_objects (fun _ => 5) (fun _ => 6) (fun j _ μ' _ => reads_scalar μ' 5 j) fun j _ μ' _ => reads_scalar μ' 6 j

end Ra.Props
