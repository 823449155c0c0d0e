import Verif.Model.Foreign
import Verif.Props.PointerExact
import Verif.Props.Assign
/-!
# C85: sequences of other types as arguments
-/

namespace Ra.Spec

/-- A built-in array `T[e0][e1]...`: an array of arrays. -/
def Builtin (α : Type) : List Nat → Type
  | [] => α
  | n :: e => Fin n → Builtin α e

/-- `a[j0][j1]...`. -/
def brackets {α : Type} : (e : List Nat) → Builtin α e → List Int → Option α
  | [], a, [] => some a
  | n :: e, a, i :: j => if h : 0 ≤ i ∧ i < n then brackets e (a ⟨i.toNat, by omega⟩) j else none
  | _, _, _ => none

/-- The memory of the array: its elements are one after the other ([dcl.array] in the C++ standard). -/
def layout {α : Type} : (e : List Nat) → Builtin α e → List α
  | [], a => [a]
  | _ :: e, a => (List.ofFn fun k => layout e (a k)).flatten

/-- Memory where the values in `l` are the only ones, from address `cp` on. -/
def stored {α : Type} (cp : Int) (l : List α) (p : Int) : Except Fault α :=
  if p < cp then .error .ub else match l[(p - cp).toNat]? with
    | some x => .ok x
    | none => .error .ub

/-- The lengths of a sequence. -/
def extents : Foreign → List Nat
  | .range n _ => [n]
  | .builtin e => e

/-- Expressions with these sequences and scalars as arguments, and any functions. Also the memory of each of the sequences, from left to right. -/
inductive OnForeign {m : Type → Type} {α : Type} : Iter m α → List (Option (Int × Int)) → Prop
  | scalar (c : m α) : OnForeign (.scalar c) []
  | arg (f : Foreign) (cp : Int) (rd : Int → m α) (a : Iter m α) (h : f.iter cp rd = .ok a) : OnForeign a [some (cp, size (extents f))]
  | map (op : List (m α) → m α) (t : List (Iter m α × List (Option (Int × Int)))) (h : ∀ x ∈ t, OnForeign x.1 x.2) : OnForeign (.node op (t.map Prod.fst)) (t.flatMap Prod.snd)

end Ra.Spec

namespace Ra.Props
open Spec

theorem sizeSLoop_nat (e : List Nat) (s : Nat) : sizeSLoop s (e.map Nat.cast) = (s * size e : Nat) := by
  induction e generalizing s with
  | nil => simp [sizeSLoop, size]
  | cons n e ih =>
    simp only [List.map_cons, sizeSLoop]
    rw [if_neg (by omega)]
    have := ih (s * n)
    push_cast at this
    rw [this]
    simp [size]
    ring

theorem sizeS_builtin (e : List Nat) : (Foreign.builtin e).sizeS = size e := by
  have := sizeSLoop_nat e 1
  simpa [Foreign.sizeS, Foreign.shapeS] using this

/-- The view has the lengths of the sequence and the places of its elements. -/
theorem view_foreign (f : Foreign) (cp : Int) : ∃ v, f.view cp = .ok v ∧ v.cp = cp ∧ View.ofShape ((extents f).map Nat.cast) cp = .ok v ∧ Shaped v ((extents f).map some) ∧
    ∀ j, Valid (extents f) j → address v j = cp + position (extents f) j := by
  have hA : ANY < 0 := by decide
  have key : ∃ v, f.view cp = .ok v ∧ View.ofShape ((extents f).map Nat.cast) cp = .ok v := by
    cases f with
    | builtin e =>
      obtain ⟨dv, h1, h2, h3⟩ := filldimv_ok e
      have : (Foreign.builtin e).shape = e.map Nat.cast := by
        rw [Foreign.shape, if_pos (by rw [sizeS_builtin]; omega)]; rfl
      refine ⟨⟨dv, cp⟩, ?_, ?_⟩
      · simp only [Foreign.view, this, View.ofShape, h1]; rfl
      · simp only [extents, View.ofShape, h1]; rfl
    | range n fixed =>
      have hs : (Foreign.range n fixed).sizeS = if fixed then (n : Int) else ANY := by
        cases fixed <;> simp [Foreign.sizeS, Foreign.shapeS, sizeSLoop, hA]
      refine ⟨⟨[⟨n, 1⟩], cp⟩, ?_, ?_⟩
      · cases fixed with
        | false => simp [Foreign.view, hs, Foreign.size, Foreign.ssize, viewptr]
        | true =>
          have : ANY ≠ (n : Int) := by omega
          simp [Foreign.view, hs, viewptr, this]
      · obtain ⟨dv, h1, h2, h3⟩ := filldimv_ok [n]
        simp only [extents, View.ofShape, h1]
        have : filldimv ([n].map Nat.cast) = .ok ([⟨n, 1⟩], (n : Int)) := by
          simp [filldimv, bind, Except.bind, pure, Except.pure]
        rw [this] at h1
        simp only [Except.ok.injEq, Prod.mk.injEq] at h1
        rw [← h1.1]
        rfl
  obtain ⟨v, h1, h2⟩ := key
  obtain ⟨dv, e1, e2, e3⟩ := filldimv_ok (extents f)
  have h3 := h2
  simp only [View.ofShape, e1, bind, Except.bind, pure, Except.pure, Except.ok.injEq] at h3
  subst h3
  exact ⟨_, h1, rfl, h2, e2, fun j hj => by rw [address, e3 j hj]⟩

theorem length_layout {α : Type} (e : List Nat) (a : Builtin α e) : (layout e a).length = size e := by
  induction e with
  | nil => rfl
  | cons n e ih =>
    have : ((List.ofFn fun k => layout e (a k)).map List.length) = List.replicate n (size e) := by
      rw [List.map_ofFn, show (List.length ∘ fun k => layout e (a k)) = fun _ => size e from funext fun k => ih _]
      exact List.ext_getElem (by simp) fun k h1 h2 => by simp
    rw [layout, List.length_flatten, this]
    simp [size]

theorem getElem_flatten {α : Type} (L : List (List α)) (p : Nat) (hL : ∀ l ∈ L, l.length = p) (i k : Nat) (hk : k < p) : L.flatten[i * p + k]? = (L[i]?.bind fun l => l[k]?) := by
  induction L generalizing i with
  | nil => simp
  | cons l L ih =>
    have hl := hL l (by simp)
    cases i with
    | zero =>
      simp only [List.flatten_cons, Nat.zero_mul, Nat.zero_add, List.getElem?_cons_zero, Option.bind_some]
      rw [List.getElem?_append_left (by omega)]
    | succ i =>
      simp only [List.flatten_cons, List.getElem?_cons_succ]
      rw [← ih (fun l hl => hL l (List.mem_cons_of_mem _ hl)) i]
      have e : (i + 1) * p = i * p + p := by ring
      rw [List.getElem?_append_right (by rw [hl, e]; omega)]
      congr 1
      rw [hl, e]; omega

/-- The place of an element of a built-in array. -/
theorem layout_get {α : Type} (e : List Nat) (a : Builtin α e) (j : List Int) (hj : Valid e j) : ∃ x, brackets e a j = some x ∧ (layout e a)[(position e j).toNat]? = some x := by
  induction e generalizing j with
  | nil =>
    cases j with
    | nil => exact ⟨a, rfl, rfl⟩
    | cons i j => simp [Valid] at hj
  | cons n e ih =>
    cases j with
    | nil => simp [Valid] at hj
    | cons i j =>
      simp only [Valid] at hj
      obtain ⟨x, h1, h2⟩ := ih (a ⟨i.toNat, by omega⟩) j hj.2.2
      refine ⟨x, ?_, ?_⟩
      · rw [brackets, dif_pos ⟨hj.1, hj.2.1⟩, h1]
      · obtain ⟨p0, p1⟩ := position_bounds hj.2.2
        have e1 : (position (n :: e) (i :: j)).toNat = i.toNat * size e + (position e j).toNat := by
          have : position (n :: e) (i :: j) = ((i.toNat * size e + (position e j).toNat : Nat) : Int) := by
            push_cast
            rw [Int.toNat_of_nonneg hj.1, Int.toNat_of_nonneg p0]
            rfl
          rw [this]; rfl
        rw [e1, layout, getElem_flatten _ (size e) (by
          intro l hl
          obtain ⟨k, rfl⟩ := List.mem_ofFn.mp hl
          exact length_layout e _) _ _ (by omega)]
        have : (List.ofFn fun k => layout e (a k))[i.toNat]? = some (layout e (a ⟨i.toNat, by omega⟩)) := by
          rw [List.getElem?_eq_getElem (by simp; omega)]; simp
        rw [this]
        exact h2

theorem stored_get {α : Type} (cp : Int) (l : List α) (k : Int) (hk : 0 ≤ k) (x : α) (h : l[k.toNat]? = some x) : stored cp l (cp + k) = .ok x := by
  rw [stored, if_neg (by omega), show cp + k - cp = k by omega, h]

section
variable {α β : Type}

/-- C85. A range used as an argument (its length may be part of its type or not) is accepted. It has one axis of the length of the range, and its elements are those of the range. -/
theorem C85_range (l : List α) (fixed : Bool) (cp : Int) : ∃ a, (Foreign.range l.length fixed).iter cp (stored cp l) = .ok a ∧ HasShape a [some l.length] ∧
    ∀ (i : Nat) (x : α), l[i]? = some x → elem a [(i : Int)] = .ok x := by
  obtain ⟨v, h1, h2, _, h3, h4⟩ := view_foreign (.range l.length fixed) cp
  refine ⟨.cell v.dims v.cp (stored cp l), by simp [Foreign.iter, h1, bind, Except.bind, pure, Except.pure], h3, ?_⟩
  intro i x hx
  have hi : i < l.length := (List.getElem?_eq_some_iff.mp hx).1
  have := h4 [(i : Int)] ⟨by omega, by omega, trivial⟩
  simp only [address] at this
  simp only [elem, this, extents, position, size]
  refine stored_get cp l _ (by omega) x ?_
  simpa using hx

/-- C85. A built-in array used as an argument is accepted. It has an axis for each extent, and its element at `j` is `a[j0][j1]...`. -/
theorem C85_builtin (e : List Nat) (a : Builtin α e) (cp : Int) : ∃ it, (Foreign.builtin e).iter cp (stored cp (layout e a)) = .ok it ∧ HasShape it (e.map some) ∧
    ∀ j, Valid e j → ∃ x, brackets e a j = some x ∧ elem it j = .ok x := by
  obtain ⟨v, h1, h2, _, h3, h4⟩ := view_foreign (.builtin e) cp
  refine ⟨.cell v.dims v.cp (stored cp (layout e a)), by simp [Foreign.iter, h1, bind, Except.bind, pure, Except.pure], h3, ?_⟩
  intro j hj
  obtain ⟨x, g1, g2⟩ := layout_get e a j hj
  refine ⟨x, g1, ?_⟩
  have := h4 j hj
  simp only [address] at this
  simp only [elem, this]
  exact stored_get cp _ _ (position_bounds hj).1 x g2

/-- C85. `ra::rank`, `ra::shape` and `ra::size` of these sequences. -/
theorem C85_shape (f : Foreign) : f.rankS = (extents f).length ∧ f.shape = (extents f).map Nat.cast ∧ f.size = size (extents f) := by
  have hA : ANY < 0 := by decide
  cases f with
  | builtin e =>
    refine ⟨rfl, ?_, ?_⟩
    · rw [Foreign.shape, if_pos (by rw [sizeS_builtin]; omega)]; rfl
    · rw [Foreign.size, if_pos (by rw [sizeS_builtin]; omega), sizeS_builtin]; rfl
  | range n fixed =>
    have hs : (Foreign.range n fixed).sizeS = if fixed then (n : Int) else ANY := by
      cases fixed <;> simp [Foreign.sizeS, Foreign.shapeS, sizeSLoop, hA]
    have hn : ANY ≠ (n : Int) := by omega
    refine ⟨rfl, ?_, ?_⟩ <;> cases fixed <;> simp [Foreign.shape, Foreign.size, hs, hn, extents, size, Foreign.ssize, Foreign.shapeS]

end

section
variable {m : Type → Type} {α β : Type}

/-- C85. `ptr(p, n, s)` is accepted if and only if the length isn't negative, and then it has length `n` and its element `i` is `p[s*i]`. -/
theorem C85_ptr (cp n s : Int) (rd : Int → m α) :
    (n < 0 → ptr cp n false s rd = .error .check) ∧
    (0 ≤ n → ∃ a, ptr cp n false s rd = .ok a ∧ HasShape a [some n.toNat] ∧ ∀ i : Int, 0 ≤ i → i < n → elem a [i] = rd (cp + s * i)) := by
  refine ⟨fun h => by simp [ptr, viewptr, h, bind, Except.bind], fun h => ⟨.cell [⟨n, s⟩] cp rd, ?_, .cons ?_ .nil, ?_⟩⟩
  · simp [ptr, viewptr, not_lt.mpr h, bind, Except.bind, pure, Except.pure]
  · simp [DimLen]; omega
  · intro i _ _
    simp [elem, dot, mul_comm]

/-- C85. `ptr(p)` is accepted, it has one axis without length and its element `i` is `p[i]`, for any `i`. -/
theorem C85_unbounded (cp s : Int) (rd : Int → m α) : ∃ a, ptr cp UNB true s rd = .ok a ∧ HasShape a [none] ∧ ∀ i : Int, elem a [i] = rd (cp + s * i) := by
  refine ⟨.cell [⟨UNB, s⟩] cp rd, rfl, .cons rfl .nil, ?_⟩
  intro i
  simp [elem, dot, mul_comm]

theorem prefix_eq {e s : List Nat} {s0 : List Length} (h0 : s0 = e.map some) (hl : s0.length ≤ s.length) (h : ∀ k n : Nat, s0[k]? = some (some n) → s[k]? = some n) : s = e ++ s.drop e.length := by
  subst h0
  have : s.take e.length = e := by
    apply List.ext_getElem?
    intro k
    by_cases hk : k < e.length
    · rw [List.getElem?_take_of_lt hk, h k e[k] (by simp [hk]), List.getElem?_eq_getElem hk]
    · rw [List.getElem?_eq_none (by simp; omega), List.getElem?_eq_none (by omega)]
  conv_lhs => rw [← List.take_append_drop e.length s, this]

theorem dims_unique {dims : List Dim} {s0 : List Length} {e : List Nat} (h1 : List.Forall₂ DimLen dims s0) (h2 : List.Forall₂ DimLen dims (e.map some)) : s0 = e.map some := by
  have hU : UNB < 0 := by decide
  induction h1 generalizing e with
  | nil =>
    cases e with
    | nil => rfl
    | cons n e => cases h2
  | @cons d o dims s0 hd h1 ih =>
    cases e with
    | nil => cases h2
    | cons n e =>
      cases h2 with
      | cons hd' h2 =>
        rw [ih h2, List.map_cons]
        congr 1
        simp only [DimLen] at hd hd'
        cases o with
        | none => simp only at hd; omega
        | some k => simp only at hd; congr 1; omega

theorem hasShapes_mem {t : List (Iter m α)} {ss : List (List Length)} (h : HasShapes t ss) {a : Iter m α} (ha : a ∈ t) : ∃ x ∈ ss, HasShape a x := by
  induction t generalizing ss with
  | nil => simp at ha
  | cons b t ih =>
    obtain ⟨x, ss', rfl, h1, h2⟩ := h
    rcases List.mem_cons.mp ha with rfl | ha
    · exact ⟨x, by simp, h1⟩
    · obtain ⟨y, hy, h3⟩ := ih h2 ha
      exact ⟨y, List.mem_cons_of_mem _ hy, h3⟩

theorem count_pointersAts (t : List (Iter m α)) (j : List Int) : (pointersAts t j).length = (t.map fun a => (pointersAt a j).length).sum := by
  induction t with
  | nil => rfl
  | cons a t ih => simp [pointersAts, ih]

theorem roomy_foreign {a : Iter m α} {b : List (Option (Int × Int))} (h : OnForeign a b) : ∀ s0, HasShape a s0 → ∀ s : List Nat, s0.length ≤ s.length →
    (∀ k n : Nat, s0[k]? = some (some n) → s[k]? = some n) → Roomy a s b ∧ (pointersAt a []).length = b.length := by
  induction h with
  | scalar c =>
    intro s0 _ s _ _
    exact ⟨fun k n _ i _ t _ _ x hx => by simp at hx, rfl⟩
  | arg f cp rd a h =>
    intro s0 hs s hl hk
    obtain ⟨v, h1, h2, h3, h4, h5⟩ := view_foreign f cp
    simp only [Foreign.iter, h1, bind, Except.bind, pure, Except.pure, Except.ok.injEq] at h
    subst h
    have e0 := dims_unique hs h4
    refine ⟨?_, rfl⟩
    rw [prefix_eq e0 hl hk]
    refine C68_prefix _ _ _ _ _ _ (by rw [h4.length_eq, List.length_map]) (C68_array (extents f) cp v h3 rd) ?_
    intro x hx
    simp only [pointersAt, List.zip_cons_cons, List.zip_nil_left, List.mem_singleton] at hx
    subst hx
    simp [InArray, dot, h2]
  | map op t h ih =>
    intro s0 hs s hl hk
    obtain ⟨ss, h1, h2⟩ := hs
    have key : ∀ x ∈ t, Roomy x.1 s x.2 ∧ (pointersAt x.1 []).length = x.2.length := by
      intro x hx
      obtain ⟨y, hy, h3⟩ := hasShapes_mem h1 (List.mem_map.mpr ⟨x, hx, rfl⟩)
      refine ih x hx y h3 s ?_ ?_
      · exact le_trans (h2.1 y hy) hl
      · exact fun k n hn => hk k n ((h2.2.2 k n).mpr ⟨y, hy, hn⟩)
    refine ⟨C68_nodes s op t key, ?_⟩
    simp only [pointersAt, count_pointersAts, List.map_map, List.length_flatMap]
    congr 1
    refine List.map_congr_left fun x hx => (key x hx).2

variable [Monad m] [LawfulMonad m] [MonadFault m]

/-- C85. In expressions on these sequences (with prefix matching, and for either traversal) no iterator is moved out of its sequence, besides the end. So the traversal is the same as if there
were no limits, and for example it can have iterators of linked lists. -/
theorem C85_limits (b : List (Option (Int × Int))) (a : Iter m α) (h : OnForeign a b) (s : List Nat) (hs : HasShape a (s.map some)) (dyn : Bool) (stop : α → Option β)
    (z : List Int) (hz : ∀ i ∈ z, i = 0) :
    plyP b dyn stop z a = (do let r ← search (fun j => do let x ← elem a j; pure (stop x)) (rowMajor s); pure (r.map Prod.fst)) := by
  refine C68_partial b dyn stop a s hs (roomy_foreign h _ hs s (by simp) ?_).1 z hz
  intro k n hn
  simpa using hn

end

section
variable {V : Type}

/-- C85. Assignment to one of these sequences sets its elements, and no other memory. -/
theorem C85_assign (f : Foreign) (cp : Int) (dyn : Bool) (z : List Int) (hz : ∀ i ∈ z, i = 0) (x : Iter (Act V) (Lv V)) (sx : List Length) (hx : HasShape x sx)
    (hm : Merge [(extents f).map some, sx] ((extents f).map some)) (μ : Mem V) (hmem : ∀ k : Nat, k < size (extents f) → (μ (cp + k)).isSome) (val : List Int → V)
    (hval : ∀ j, Valid (extents f) j → ∀ μ', SameOutside (fun p => cp ≤ p ∧ p < cp + size (extents f)) μ μ' → Reads μ' (elem x j) (val j)) :
    ∃ a μ', f.iter cp (fun p => (pure (.ref p) : Act V (Lv V))) = .ok a ∧ assign dyn z a x μ = (.ok (), μ') ∧
      (∀ j, Valid (extents f) j → μ' (cp + position (extents f) j) = some (val j)) ∧ SameOutside (fun p => cp ≤ p ∧ p < cp + size (extents f)) μ μ' := by
  obtain ⟨v, h1, h2, h3, h4, h5⟩ := view_foreign f cp
  have hin : ∀ p, InView v (extents f) p → cp ≤ p ∧ p < cp + size (extents f) := by
    rintro p ⟨j, hj, rfl⟩
    rw [h5 j hj]
    have := position_bounds hj
    omega
  obtain ⟨μ', g1, g2, g3⟩ := C27_view dyn z hz v (extents f) h4
    (fun j k hj hk e => by rw [h5 j hj, h5 k hk] at e; exact position_inj hj hk (by omega)) x sx hx hm μ
    (fun j hj => by
      rw [h5 j hj]
      have := position_bounds hj
      have := hmem (position (extents f) j).toNat (by omega)
      rwa [Int.toNat_of_nonneg (position_bounds hj).1] at this) val
    (fun j hj μ' hs => hval j hj μ' fun p hp => hs p fun ⟨h, _⟩ => hp (hin p h))
  refine ⟨v.refs, μ', by simp [Foreign.iter, h1, bind, Except.bind, pure, Except.pure, View.refs], g1, ?_, fun p hp => g3 p fun h => hp (hin p h)⟩
  intro j hj
  rw [← h5 j hj]
  exact g2 j hj

end

/-- The array `{{1, 2, 3}, {4, 5, 6}}`. -/
def arrEg : Builtin Nat [2, 3] := fun (i : Fin 2) (j : Fin 3) => 3 * (i : Nat) + (j : Nat) + 1

example : layout [2, 3] arrEg = [1, 2, 3, 4, 5, 6] := by decide
example : brackets [2, 3] arrEg [1, 0] = some 4 := rfl
example : ((Foreign.builtin [2, 3]).iter 100 (stored 100 (layout [2, 3] arrEg))).bind (fun a => elem a [1, 2]) = .ok 6 := rfl

/-- `map(op, std::vector {1, 2}, {{1, 2, 3}, {4, 5, 6}})`. -/
def foreignEg : Iter (Except Fault) Nat :=
  .node (mapOp fun xs => pure xs.sum) [.cell [⟨2, 1⟩] 10 (stored 10 [1, 2]), .cell [⟨2, 3⟩, ⟨3, 1⟩] 100 (stored 100 (layout [2, 3] arrEg))]

theorem foreignEg_on : OnForeign foreignEg [some (10, 2), some (100, 6)] := by
  refine OnForeign.map _ [(.cell [⟨2, 1⟩] 10 (stored 10 [1, 2]), [some (10, 2)]), (.cell [⟨2, 3⟩, ⟨3, 1⟩] 100 (stored 100 (layout [2, 3] arrEg)), [some (100, 6)])] ?_
  intro x hx
  simp only [List.mem_cons, List.not_mem_nil, or_false] at hx
  rcases hx with rfl | rfl
  · exact OnForeign.arg (.range 2 false) 10 _ _ rfl
  · exact OnForeign.arg (.builtin [2, 3]) 100 _ _ rfl

example (dyn : Bool) : plyP [some (10, 2), some (100, 6)] dyn (fun x => if x = 8 then some x else none) [] foreignEg = .ok (some 8) := by
  have hs : HasShape foreignEg ([2, 3].map some) := ⟨[[some 2], [some 2, some 3]],
    ⟨_, _, rfl, .cons rfl .nil, _, _, rfl, .cons rfl (.cons rfl .nil), rfl⟩, by simp, ⟨_, by simp, rfl⟩, by
      intro k n
      match k with
      | 0 => simp
      | 1 => simp
      | k + 2 => simp⟩
  rw [C85_limits _ _ foreignEg_on _ hs dyn _ [] (by simp)]
  decide +kernel

/-- `iter(std::list {x, y}) = 7`. -/
example : ∃ a μ', (Foreign.range 2 false).iter 10 (fun p => (pure (.ref p) : Act Int (Lv Int))) = .ok a ∧
    assign true [] a (.scalar (pure (.val 7))) (fun p => if 10 ≤ p ∧ p < 13 then some 0 else none) = (.ok (), μ') ∧ μ' 10 = some 7 ∧ μ' 11 = some 7 ∧ μ' 12 = some 0 := by
  obtain ⟨a, μ', h1, h2, h3, h4⟩ := C85_assign (.range 2 false) 10 true [] (by simp) (.scalar (pure (.val (7 : Int)))) [] rfl
    ⟨by simp, ⟨[some 2], by simp [extents], rfl⟩, by intro k n; simp [extents]⟩ (fun p => if 10 ≤ p ∧ p < 13 then some 0 else none)
    (by intro k hk; simp [extents, size] at hk; simp; omega) (fun _ => 7) (fun j _ μ' _ => reads_scalar μ' 7 j)
  refine ⟨a, μ', h1, h2, h3 [0] (by simp [Valid, extents]), h3 [1] (by simp [Valid, extents]), ?_⟩
  rw [h4 12 (by simp [extents, size])]
  rfl

end Ra.Props
