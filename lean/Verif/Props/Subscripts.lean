import Verif.Props.Roll
import Verif.Props.ByCells
/-!
# C124: the ways to write the same subscripts
-/

namespace Ra.Props
open Spec

/-! ## One subscript at a time -/

/-- What is left of `fromb` without the axes for array subscripts. -/
def fromv (pl : Int) (dims : List Dim) (is : List Sub) : Except Fault (Int × List Dim) := do
  let (cp, bv, _) ← fromb pl 0 dims is
  return (cp, bv)

theorem fromb_bk (is : List Sub) (pl : Int) (bk : Nat) (dims : List Dim) : (do let (cp, bv, _) ← fromb pl bk dims is; return (cp, bv)) = fromv pl dims is := by
  have key : ∀ (is : List Sub) (pl : Int) (bk bk' : Nat) (dims : List Dim), (do let (cp, bv, _) ← fromb pl bk dims is; return (cp, bv) : Except Fault (Int × List Dim)) = (do let (cp, bv, _) ← fromb pl bk' dims is; return (cp, bv)) := by
    intro is
    induction is with
    | nil => intro pl bk bk' dims; rfl
    | cons i is ih =>
      intro pl bk bk' dims
      have ih' : ∀ (pl : Int) (bk bk' : Nat) (dims : List Dim) (b0 : List Dim) (g g' : List Nat → List Nat),
          (do let (cp, bv, ds) ← fromb pl bk dims is; let (cp, bv, _) ← (.ok (cp, b0 ++ bv, g ds) : Except Fault (Int × List Dim × List Nat)); return (cp, bv) : Except Fault (Int × List Dim)) =
            (do let (cp, bv, ds) ← fromb pl bk' dims is; let (cp, bv, _) ← (.ok (cp, b0 ++ bv, g' ds) : Except Fault (Int × List Dim × List Nat)); return (cp, bv)) := by
        intro pl bk bk' dims b0 g g'
        have := ih pl bk bk' dims
        cases h1 : fromb pl bk dims is <;> cases h2 : fromb pl bk' dims is <;> simp only [h1, h2, bind, Except.bind, pure, Except.pure, Except.ok.injEq, Except.error.injEq, reduceCtorEq, Prod.mk.injEq] at this ⊢
        · exact this
        · rw [this.1, this.2]; exact ⟨rfl, rfl⟩
      cases i with
      | scalar e =>
        cases dims with
        | nil => rfl
        | cons d dims =>
          simp only [fromb, bind_assoc]
          congr 1; funext x
          split
          · exact ih _ _ _ _
          · rfl
      | iota iz o =>
        cases dims with
        | nil => rfl
        | cons d dims =>
          simp only [fromb, bind_assoc]
          congr 1; funext iz
          split
          · rfl
          · simp only [bind_assoc]
            congr 1; funext x
            congr 1; funext ⟨pl, b0⟩
            exact ih' pl _ _ dims b0 id id
      | dots n =>
        have key : ∀ q : Nat, (do let (cp, bv, _) ← (if dims.length < q then .error .ub else do let (pl, bv, ds) ← fromb pl (bk + q) (dims.drop q) is; return (pl, dims.take q ++ bv, ds) : Except Fault (Int × List Dim × List Nat)); return (cp, bv) : Except Fault (Int × List Dim)) =
            (do let (cp, bv, _) ← (if dims.length < q then .error .ub else do let (pl, bv, ds) ← fromb pl (bk' + q) (dims.drop q) is; return (pl, dims.take q ++ bv, ds) : Except Fault (Int × List Dim × List Nat)); return (cp, bv)) := by
          intro q
          by_cases hq : dims.length < q
          · rw [if_pos hq, if_pos hq]
          · rw [if_neg hq, if_neg hq]
            simp only [bind_assoc]
            exact ih' pl _ _ _ _ id id
        exact key _
      | insert n =>
        simp only [fromb, bind_assoc]
        exact ih' pl _ _ _ _ id id
      | array =>
        cases dims with
        | nil => rfl
        | cons d dims =>
          simp only [fromb, bind_assoc]
          exact ih' pl _ _ dims [d] (bk :: ·) (bk' :: ·)
  exact key is pl bk 0 dims

theorem from_fromv (v : View) (is : List Sub) : v.from is = (do let (cp, bv) ← fromv v.cp v.dims is; return ⟨bv, cp⟩) := by
  simp only [View.from, fromv, bind_assoc, pure_bind]

/-- One subscript: the pointer, the axes it makes, and the axes that are left. -/
def beat1 (pl : Int) (dims : List Dim) : Sub → Except Fault (Int × List Dim × List Dim)
  | .scalar e =>
    match dims with
    | [] => .error .ub
    | d :: dims => do
      let i ← (e.wlen d.len).val
      if inside i d.len ∨ (UNB = d.len ∧ 0 = d.step) then .ok (pl + i * d.step, [], dims) else .error .check
  | .iota iz o =>
    match dims with
    | [] => .error .ub
    | d :: dims => do
      let iz ← iotaDims d.len iz
      if iz.length = 1 ∧ iz.any (·.len < 0) then .error .check else
      let i ← (o.wlen d.len).val
      let (pl, b0) ← iotaLoop d.len d.step i pl iz
      return (pl, b0, dims)
  | .dots n => if dims.length < n.getD 0 then .error .ub else .ok (pl, dims.take (n.getD 0), dims.drop (n.getD 0))
  | .insert n => .ok (pl, List.replicate n ⟨UNB, 0⟩, dims)
  | .array =>
    match dims with
    | [] => .error .ub
    | d :: dims => .ok (pl, [d], dims)

theorem fromv_cons (pl : Int) (dims : List Dim) (i : Sub) (is : List Sub) (hi : i ≠ .dots none) :
    fromv pl dims (i :: is) = (do
      let (pl, b0, rest) ← beat1 pl dims i
      let (cp, bv) ← fromv pl rest is
      return (cp, b0 ++ bv)) := by
  have e : ∀ (pl : Int) (bk : Nat) (dims b0 : List Dim) (g : List Nat → List Nat), (do
      let r ← fromb pl bk dims is
      let r ← (pure (r.1, b0 ++ r.2.1, g r.2.2) : Except Fault (Int × List Dim × List Nat))
      pure (r.1, r.2.1)) = (do let r ← fromv pl dims is; pure (r.1, b0 ++ r.2)) := by
    intro pl bk dims b0 g
    rw [← fromb_bk is pl bk dims]
    simp only [bind_assoc, pure_bind]
  cases i with
  | scalar e =>
    cases dims with
    | nil => rfl
    | cons d dims =>
      simp only [fromv, fromb, beat1, bind_assoc]
      congr 1; funext x
      split
      · simp only [bind, Except.bind, List.nil_append]
        cases fromb (pl + x * d.step) 0 dims is <;> rfl
      · rfl
  | iota iz o =>
    cases dims with
    | nil => rfl
    | cons d dims =>
      rw [fromv]
      simp only [fromb, beat1, bind_assoc]
      congr 1; funext iz
      split
      · rfl
      · simp only [bind_assoc, pure_bind]
        congr 1; funext x
        congr 1; funext ⟨pl, b0⟩
        exact e pl _ dims b0 id
  | dots n =>
    cases n with
    | none => exact absurd rfl hi
    | some n =>
      rw [fromv]
      simp only [fromb, beat1, Option.getD_some]
      split
      · rfl
      · simp only [bind_assoc]
        exact e pl _ _ _ id
  | insert n =>
    rw [fromv]
    simp only [fromb, beat1, bind_assoc]
    exact e pl _ _ _ id
  | array =>
    cases dims with
    | nil => rfl
    | cons d dims =>
      rw [fromv]
      simp only [fromb, beat1, bind_assoc]
      exact e pl _ _ [d] _

/-- Several subscripts. -/
def beat (pl : Int) (dims : List Dim) : List Sub → Except Fault (Int × List Dim × List Dim)
  | [] => .ok (pl, [], dims)
  | i :: is => do
    let (pl, b0, rest) ← beat1 pl dims i
    let (pl, b1, rest) ← beat pl rest is
    return (pl, b0 ++ b1, rest)

theorem fromv_append (is js : List Sub) (h : ∀ i ∈ is, i ≠ .dots none) (pl : Int) (dims : List Dim) :
    fromv pl dims (is ++ js) = (do
      let (pl, b0, rest) ← beat pl dims is
      let (cp, bv) ← fromv pl rest js
      return (cp, b0 ++ bv)) := by
  induction is generalizing pl dims with
  | nil =>
    simp only [List.nil_append, beat, bind, Except.bind]
    cases fromv pl dims js <;> rfl
  | cons i is ih =>
    rw [List.cons_append, fromv_cons _ _ _ _ (h i (by simp))]
    simp only [ih fun i hi => h i (by simp [hi]), beat, bind_assoc, pure_bind, List.append_assoc]

theorem iotaLoop_length (la st i : Int) (iz : List Dim) (pl : Int) (r : Int × List Dim) (h : iotaLoop la st i pl iz = .ok r) : r.2.length = iz.length := by
  induction iz generalizing pl r with
  | nil => cases h; rfl
  | cons d ds ih =>
    rw [iotaLoop] at h
    split at h
    · cases h1 : iotaLoop la st i (pl + i * st) ds with
      | error f => rw [h1] at h; simp [bind, Except.bind] at h
      | ok r' =>
        rw [h1] at h
        simp only [bind, Except.bind, pure, Except.pure, Except.ok.injEq] at h
        rw [← h, List.length_cons, List.length_cons, ih _ _ h1]
    · simp at h

theorem iotaDims_length (la : Int) (iz : List (LenExpr × LenExpr)) (r : List Dim) (h : iotaDims la iz = .ok r) : r.length = iz.length := by
  induction iz generalizing r with
  | nil => cases h; rfl
  | cons p iz ih =>
    obtain ⟨n, s⟩ := p
    simp only [iotaDims, bind, Except.bind] at h
    cases h1 : (n.wlen la).val with
    | error f => simp [h1] at h
    | ok n' =>
      cases h2 : (s.wlen la).val with
      | error f => simp [h1, h2] at h
      | ok s' =>
        cases h3 : iotaDims la iz with
        | error f => simp [h1, h2, h3] at h
        | ok t =>
          simp only [h1, h2, h3, pure, Except.pure, Except.ok.injEq] at h
          rw [← h, List.length_cons, List.length_cons, ih _ h3]

theorem beat1_length (pl : Int) (dims : List Dim) (i : Sub) (r : Int × List Dim × List Dim) (h : beat1 pl dims i = .ok r) : r.2.1.length = fdst i := by
  cases i with
  | scalar e =>
    cases dims with
    | nil => simp [beat1] at h
    | cons d dims =>
      simp only [beat1, bind, Except.bind] at h
      split at h
      · simp at h
      · split at h
        · cases h; rfl
        · simp at h
  | iota iz o =>
    cases dims with
    | nil => simp [beat1] at h
    | cons d dims =>
      simp only [beat1, bind, Except.bind] at h
      split at h
      · simp at h
      · rename_i iz' h1
        split at h
        · simp at h
        · split at h
          · simp at h
          · split at h
            · simp at h
            · rename_i r' h3
              cases h
              rw [fdst, ← iotaDims_length _ _ _ h1]
              exact iotaLoop_length _ _ _ _ _ _ h3
  | dots n =>
    simp only [beat1] at h
    split at h
    · simp at h
    · cases h; simp only [List.length_take, fdst]; omega
  | insert n => cases h; simp [fdst]
  | array =>
    cases dims with
    | nil => simp [beat1] at h
    | cons d dims => cases h; rfl

theorem beat_length (is : List Sub) (pl : Int) (dims : List Dim) (r : Int × List Dim × List Dim) (h : beat pl dims is = .ok r) : r.2.1.length = (is.map fdst).sum := by
  induction is generalizing pl dims r with
  | nil => cases h; rfl
  | cons i is ih =>
    simp only [beat, bind, Except.bind] at h
    split at h
    · simp at h
    · rename_i r1 h1
      split at h
      · simp at h
      · rename_i r2 h2
        cases h
        simp only [List.length_append, List.map_cons, List.sum_cons, beat1_length _ _ _ _ h1, ih _ _ _ h2]

theorem fromv_nil (pl : Int) (dims : List Dim) : fromv pl dims [] = .ok (pl, dims) := rfl

/-! ## The ways to write the same subscripts -/

/-- C124. Subscripts may be given in steps: `a(i ..., j ...)` is `a(i ...)(dots<n>, j ...)`, where `n` is the number of axes that `i ...` makes. With the same error, if there's one. -/
theorem C124_steps (v : View) (is js : List Sub) (h : ∀ i ∈ is, i ≠ .dots none) :
    v.from (is ++ js) = (do let w ← v.from is; w.from (.dots (some (is.map fdst).sum) :: js)) := by
  have e : v.from is = v.from (is ++ []) := by rw [List.append_nil]
  rw [e]
  simp only [from_fromv, fromv_append is _ h, bind_assoc, pure_bind, fromv_nil]
  cases hb : beat v.cp v.dims is with
  | error f => rfl
  | ok r =>
    obtain ⟨pl, b0, rest⟩ := r
    have hl : b0.length = (is.map fdst).sum := beat_length _ _ _ _ hb
    show _ = (do let (cp, bv) ← fromv pl (b0 ++ rest) (.dots (some (is.map fdst).sum) :: js); pure (⟨bv, cp⟩ : View))
    rw [fromv_cons _ _ _ _ (by simp)]
    simp only [beat1, Option.getD_some]
    rw [if_neg (by rw [List.length_append]; omega), ← hl, List.take_left' rfl, List.drop_left' rfl]
    simp only [bind_assoc, pure_bind]

theorem beat_rest (is : List Sub) (pl : Int) (dims : List Dim) (r : Int × List Dim × List Dim) (h : beat pl dims is = .ok r) : dims.length = (is.map fsrc).sum + r.2.2.length ∧ r.2.2.Sublist dims := by
  induction is generalizing pl dims r with
  | nil => cases h; simp
  | cons i is ih =>
    simp only [beat, bind, Except.bind] at h
    split at h
    · simp at h
    · rename_i r1 h1
      split at h
      · simp at h
      · rename_i r2 h2
        cases h
        obtain ⟨k1, k2⟩ := ih _ _ _ h2
        have k1' : r1.2.2.length = (is.map fsrc).sum + r2.2.2.length := k1
        have k3 : dims.length = fsrc i + r1.2.2.length ∧ r1.2.2.Sublist dims := by
          clear ih h2 k1 k1' k2
          cases i with
          | scalar e =>
            cases dims with
            | nil => simp [beat1] at h1
            | cons d dims =>
              simp only [beat1, bind, Except.bind] at h1
              split at h1
              · simp at h1
              · split at h1
                · cases h1; exact ⟨by simp [fsrc]; omega, by simp⟩
                · simp at h1
          | iota iz o =>
            cases dims with
            | nil => simp [beat1] at h1
            | cons d dims =>
              simp only [beat1, bind, Except.bind] at h1
              split at h1
              · simp at h1
              · split at h1
                · simp at h1
                · split at h1
                  · simp at h1
                  · split at h1
                    · simp at h1
                    · cases h1; exact ⟨by simp [fsrc]; omega, by simp⟩
          | dots n =>
            simp only [beat1] at h1
            split at h1
            · simp at h1
            · cases h1; exact ⟨by simp only [List.length_drop, fsrc]; omega, List.drop_sublist _ _⟩
          | insert n => cases h1; exact ⟨by simp [fsrc], by simp⟩
          | array =>
            cases dims with
            | nil => simp [beat1] at h1
            | cons d dims => cases h1; exact ⟨by simp [fsrc]; omega, by simp⟩
        refine ⟨?_, k2.trans k3.2⟩
        rw [List.map_cons, List.sum_cons]
        show dims.length = fsrc i + (is.map fsrc).sum + r2.2.2.length
        omega

theorem beat1_scalar (pl : Int) (d : Dim) (ds : List Dim) (i : Int) (h : 0 ≤ d.len) : beat1 pl (d :: ds) (.scalar (.const i)) = if inside i d.len then .ok (pl + i * d.step, [], ds) else .error .check := by
  have e : ((LenExpr.const i).wlen d.len).val = .ok i := rfl
  simp only [beat1, e, bind, Except.bind]
  have hu : ¬ (UNB = d.len ∧ 0 = d.step) := by rintro ⟨h1, _⟩; rw [← h1] at h; exact absurd h (by decide)
  simp only [hu, or_false]

theorem beat1_iota (pl : Int) (d : Dim) (ds : List Dim) (n s o : Int) : beat1 pl (d :: ds) (.iota [(.const n, .const s)] (.const o)) =
    if n < 0 then .error .check else if n = 0 ∨ (inside o d.len ∧ inside (o + (n - 1) * s) d.len) then .ok (pl + o * d.step, [⟨n, s * d.step⟩], ds) else .error .check := by
  have e1 : iotaDims d.len [(.const n, .const s)] = .ok [⟨n, s⟩] := rfl
  have e2 : ((LenExpr.const o).wlen d.len).val = .ok o := rfl
  simp only [beat1, e1, e2, bind, Except.bind, List.length_singleton, List.any_cons, List.any_nil, Bool.or_false, decide_eq_true_eq, true_and, iotaLoop]
  by_cases h1 : n < 0
  · rw [if_pos h1, if_pos h1]
  · rw [if_neg h1, if_neg h1]
    by_cases h2 : n = 0 ∨ (inside o d.len ∧ inside (o + (n - 1) * s) d.len)
    · rw [if_pos h2, if_pos h2]; rfl
    · rw [if_neg h2, if_neg h2]

theorem fromv_pick (pl : Int) (b0 : List Dim) (q : Int) (b1 : List Dim) : fromv pl (b0 ++ ⟨1, q⟩ :: b1) [.dots (some b0.length), .scalar (.const 0)] = .ok (pl, b0 ++ b1) := by
  rw [fromv_cons _ _ _ _ (by simp)]
  simp only [beat1, Option.getD_some, List.length_append]
  rw [if_neg (by omega)]
  simp only [bind, Except.bind, List.take_left', List.drop_left']
  rw [fromv_cons _ _ _ _ (by simp), beat1_scalar _ _ _ _ (by simp), if_pos (by simp [inside])]
  simp [bind, Except.bind, fromv_nil, pure, Except.pure]

theorem iotaLoop_shift (la st i c : Int) (iz : List Dim) (pl : Int) : iotaLoop la st i (pl + c) iz = (iotaLoop la st i pl iz).map fun r => (r.1 + c, r.2) := by
  induction iz generalizing pl with
  | nil => rfl
  | cons d ds ih =>
    simp only [iotaLoop]
    split
    · rw [show pl + c + i * st = pl + i * st + c by ring, ih]
      cases iotaLoop la st i (pl + i * st) ds <;> rfl
    · rfl

theorem fromb_shift (is : List Sub) (pl c : Int) (bk : Nat) (dims : List Dim) : fromb (pl + c) bk dims is = (fromb pl bk dims is).map fun r => (r.1 + c, r.2) := by
  induction is generalizing pl bk dims with
  | nil => rfl
  | cons i is ih =>
    cases i with
    | scalar e =>
      cases dims with
      | nil => rfl
      | cons d dims =>
        simp only [fromb, bind, Except.bind]
        cases (e.wlen d.len).val with
        | error f => rfl
        | ok x =>
          simp only
          split
          · rw [show pl + c + x * d.step = pl + x * d.step + c by ring, ih]
          · rfl
    | iota iz o =>
      cases dims with
      | nil => rfl
      | cons d dims =>
        simp only [fromb, bind, Except.bind]
        cases iotaDims d.len iz with
        | error f => rfl
        | ok iz =>
          simp only
          split
          · rfl
          · cases (o.wlen d.len).val with
            | error f => rfl
            | ok x =>
              simp only [iotaLoop_shift]
              cases iotaLoop d.len d.step x pl iz with
              | error f => rfl
              | ok r =>
                simp only [Except.map, ih]
                cases fromb r.1 (bk + iz.length) dims is <;> rfl
    | dots n =>
      have key : ∀ q : Nat, (if dims.length < q then .error .ub else do let (pl, bv, ds) ← fromb (pl + c) (bk + q) (dims.drop q) is; return (pl, dims.take q ++ bv, ds) : Except Fault (Int × List Dim × List Nat)) =
          (if dims.length < q then .error .ub else do let (pl, bv, ds) ← fromb pl (bk + q) (dims.drop q) is; return (pl, dims.take q ++ bv, ds) : Except Fault (Int × List Dim × List Nat)).map fun r => (r.1 + c, r.2) := by
        intro q
        by_cases hq : dims.length < q
        · rw [if_pos hq, if_pos hq]; rfl
        · rw [if_neg hq, if_neg hq, ih]
          cases fromb pl (bk + q) (dims.drop q) is <;> rfl
      exact key _
    | insert n =>
      simp only [fromb, bind, Except.bind, ih]
      cases fromb pl _ _ is <;> rfl
    | array =>
      cases dims with
      | nil => rfl
      | cons d dims =>
        simp only [fromb, bind, Except.bind, ih]
        cases fromb pl _ _ is <;> rfl

theorem fromv_shift (is : List Sub) (pl c : Int) (dims : List Dim) : fromv (pl + c) dims is = (fromv pl dims is).map fun r => (r.1 + c, r.2) := by
  simp only [fromv, fromb_shift, bind, Except.bind]
  cases fromb pl 0 dims is <;> rfl

theorem fromv_rerange (pl : Int) (b0 : List Dim) (d : Dim) (b1 : List Dim) (m t p : Int) : fromv pl (b0 ++ d :: b1) [.dots (some b0.length), .iota [(.const m, .const t)] (.const p)] =
    if m < 0 then .error .check else if m = 0 ∨ (inside p d.len ∧ inside (p + (m - 1) * t) d.len) then .ok (pl + p * d.step, b0 ++ ⟨m, t * d.step⟩ :: b1) else .error .check := by
  rw [fromv_cons _ _ _ _ (by simp)]
  simp only [beat1, Option.getD_some, List.length_append]
  rw [if_neg (by omega)]
  simp only [bind, Except.bind, List.take_left', List.drop_left']
  rw [fromv_cons _ _ _ _ (by simp), beat1_iota]
  by_cases h1 : m < 0
  · rw [if_pos h1, if_pos h1]; rfl
  · rw [if_neg h1, if_neg h1]
    by_cases h2 : m = 0 ∨ (inside p d.len ∧ inside (p + (m - 1) * t) d.len)
    · rw [if_pos h2, if_pos h2]; simp [bind, Except.bind, fromv_nil, pure, Except.pure]
    · rw [if_neg h2, if_neg h2]; rfl

theorem inside_between {o s n la q : Int} (h1 : inside o la) (h2 : inside (o + (n - 1) * s) la) (h3 : inside q n) : inside (o + s * q) la := by
  simp only [inside, Bool.and_eq_true, decide_eq_true_eq] at *
  rcases le_total 0 s with h | h
  · have a1 : 0 ≤ s * q := mul_nonneg h h3.1
    have a2 : s * q ≤ s * (n - 1) := mul_le_mul_of_nonneg_left (by omega) h
    have a3 : (n - 1) * s = s * (n - 1) := mul_comm _ _
    omega
  · have a1 : s * q ≤ 0 := mul_nonpos_of_nonpos_of_nonneg h h3.1
    have a2 : s * (n - 1) ≤ s * q := mul_le_mul_of_nonpos_left (by omega) h
    have a3 : (n - 1) * s = s * (n - 1) := mul_comm _ _
    omega

/-- Part of a list of subscripts may be exchanged for another part that does the same. -/
theorem from_part (v : View) (pre x y post : List Sub) (hp : ∀ i ∈ pre, i ≠ .dots none) (h : ∀ pl dims, v.dims.length = (pre.map fsrc).sum + dims.length ∧ dims.Sublist v.dims → fromv pl dims (x ++ post) = fromv pl dims (y ++ post)) :
    v.from (pre ++ (x ++ post)) = v.from (pre ++ (y ++ post)) := by
  simp only [from_fromv, fromv_append pre _ hp]
  cases hb : beat v.cp v.dims pre with
  | error f => rfl
  | ok r =>
    have := h r.1 r.2.2 (beat_rest _ _ _ _ hb)
    show (do let (cp, bv) ← (do let (cp, bv) ← fromv r.1 r.2.2 (x ++ post); pure (cp, r.2.1 ++ bv)); pure (⟨bv, cp⟩ : View)) = (do let (cp, bv) ← (do let (cp, bv) ← fromv r.1 r.2.2 (y ++ post); pure (cp, r.2.1 ++ bv)); pure ⟨bv, cp⟩)
    rw [this]

/-- C124. `dots<m+n>` is `dots<m>, dots<n>`, so it's as many `all`. -/
theorem C124_dots (v : View) (pre post : List Sub) (hp : ∀ i ∈ pre, i ≠ .dots none) (m n : Nat) : v.from (pre ++ .dots (some (m + n)) :: post) = v.from (pre ++ .dots (some m) :: .dots (some n) :: post) := by
  refine from_part v pre [_] [_, _] post hp fun pl dims _ => ?_
  show fromv pl dims (_ :: post) = fromv pl dims (_ :: _ :: post)
  rw [fromv_cons _ _ _ _ (by simp), fromv_cons pl dims (.dots (some m)) _ (by simp)]
  simp only [beat1, Option.getD_some]
  by_cases h1 : dims.length < m
  · rw [if_pos (by omega), if_pos h1]; rfl
  · rw [if_neg h1]
    show _ = (do let (cp, bv) ← fromv pl (dims.drop m) (.dots (some n) :: post); pure (cp, dims.take m ++ bv))
    rw [fromv_cons pl _ (.dots (some n)) _ (by simp)]
    simp only [beat1, Option.getD_some, List.length_drop]
    by_cases h2 : dims.length < m + n
    · rw [if_pos h2, if_pos (by omega)]; rfl
    · rw [if_neg h2, if_neg (by omega)]
      simp only [bind, Except.bind, List.drop_drop, List.take_add, pure, Except.pure]
      cases fromv pl (dims.drop (m + n)) post with
      | error f => rfl
      | ok r => simp

/-- C124. `dots<0>` and `insert<0>` may be left out. -/
theorem C124_nothing (v : View) (pre post : List Sub) (hp : ∀ i ∈ pre, i ≠ .dots none) : v.from (pre ++ .dots (some 0) :: post) = v.from (pre ++ post) ∧ v.from (pre ++ .insert 0 :: post) = v.from (pre ++ post) := by
  constructor
  · refine from_part v pre [_] [] post hp fun pl dims _ => ?_
    show fromv pl dims (_ :: post) = fromv pl dims post
    rw [fromv_cons _ _ _ _ (by simp)]
    simp only [beat1, Option.getD_some, Nat.not_lt_zero, if_false, List.take_zero, List.drop_zero, bind, Except.bind]
    cases fromv pl dims post <;> rfl
  · refine from_part v pre [_] [] post hp fun pl dims _ => ?_
    show fromv pl dims (_ :: post) = fromv pl dims post
    rw [fromv_cons _ _ _ _ (by simp)]
    simp only [beat1, List.replicate_zero, bind, Except.bind]
    cases fromv pl dims post <;> rfl

/-- C124. `all` may be left out at the end, any number of times. -/
theorem C124_trailing (v : View) (is : List Sub) (hp : ∀ i ∈ is, i ≠ .dots none) (k : Nat) (hk : (is.map fsrc).sum + k ≤ v.dims.length) : v.from (is ++ alls k) = v.from is := by
  have := from_part v is (alls k) [] [] hp fun pl dims hd => by
    rw [List.append_nil, List.nil_append, ← List.append_nil (alls k), fromv, fromb_alls k [] _ _ _ (by omega)]
    simp only [fromb]
    rw [if_neg (by omega)]
    simp [fromv, fromb, bind, Except.bind, pure, Except.pure]
  simpa using this

/-- C124. The whole range of an axis is `all`: `a(..., iota(len), ...)` is `a(..., all, ...)`. -/
theorem C124_whole (v : View) (pre post : List Sub) (hp : ∀ i ∈ pre, i ≠ .dots none) (hv : ∀ d ∈ v.dims, 0 ≤ d.len) :
    v.from (pre ++ .iota [(.len, .const 1)] (.const 0) :: post) = v.from (pre ++ .dots (some 1) :: post) := by
  refine from_part v pre [_] [_] post hp fun pl dims hd => ?_
  show fromv pl dims (_ :: post) = fromv pl dims (_ :: post)
  rw [fromv_cons _ _ _ _ (by simp), fromv_cons _ _ _ _ (by simp)]
  cases dims with
  | nil => rfl
  | cons d dims =>
    have h0 := hv d (hd.2.subset (by simp))
    have e1 : iotaDims d.len [(.len, .const 1)] = .ok [⟨d.len, 1⟩] := rfl
    have e2 : ((LenExpr.const 0).wlen d.len).val = .ok 0 := rfl
    have e3 : iotaLoop d.len d.step 0 pl [⟨d.len, 1⟩] = .ok (pl, [d]) := by
      simp only [iotaLoop]
      rw [if_pos (by simp only [inside, Bool.and_eq_true, decide_eq_true_eq]; omega)]
      simp [bind, Except.bind, pure, Except.pure]
    simp only [beat1, e1, e2, e3, bind, Except.bind, List.length_singleton, List.any_cons, List.any_nil, Bool.or_false, decide_eq_true_eq, true_and]
    rw [if_neg (by omega)]
    simp [pure, Except.pure]

/-- C124. A range of one element is a scalar subscript, but for the axis that it keeps: `a(..., i, ...)` is `a(..., iota(1, i), ...)(dots<n>, 0)`, where `n` is the number of axes before. -/
theorem C124_one (v : View) (pre post : List Sub) (hp : ∀ i ∈ pre, i ≠ .dots none) (hv : ∀ d ∈ v.dims, 0 ≤ d.len) (i st : Int) :
    v.from (pre ++ .scalar (.const i) :: post) = (do
      let w ← v.from (pre ++ .iota [(.const 1, .const st)] (.const i) :: post)
      w.from [.dots (some (pre.map fdst).sum), .scalar (.const 0)]) := by
  simp only [from_fromv, fromv_append pre _ hp, bind_assoc, pure_bind]
  cases hb : beat v.cp v.dims pre with
  | error f => rfl
  | ok r =>
    obtain ⟨pl, b0, rest⟩ := r
    have hl : b0.length = (pre.map fdst).sum := beat_length _ _ _ _ hb
    have hr := (beat_rest _ _ _ _ hb).2
    simp only [bind, Except.bind, pure, Except.pure]
    cases rest with
    | nil => rfl
    | cons d ds =>
      have h0 := hv d (hr.subset (by simp))
      rw [fromv_cons _ _ _ _ (by simp), fromv_cons _ _ _ _ (by simp), beat1_scalar _ _ _ _ h0, beat1_iota]
      by_cases hi : inside i d.len
      · rw [if_pos hi, if_neg (by omega), if_pos (by simpa using hi)]
        simp only [bind, Except.bind]
        cases fromv (pl + i * d.step) ds post with
        | error f => rfl
        | ok r =>
          simp only [pure, Except.pure, List.nil_append, ← hl, List.singleton_append]
          rw [fromv_pick]
      · rw [if_neg hi, if_neg (by omega), if_neg (by simpa using hi)]
        rfl

/-- C124. A range of a range is a range. -/
theorem C124_ranges (v : View) (pre post : List Sub) (hp : ∀ i ∈ pre, i ≠ .dots none) (n o s m p t : Int) (hm : 0 < m) (w x : View)
    (hw : v.from (pre ++ .iota [(.const n, .const s)] (.const o) :: post) = .ok w) (hx : w.from [.dots (some (pre.map fdst).sum), .iota [(.const m, .const t)] (.const p)] = .ok x) :
    v.from (pre ++ .iota [(.const m, .const (s * t))] (.const (o + s * p)) :: post) = .ok x := by
  simp only [from_fromv, fromv_append pre _ hp, bind_assoc, pure_bind] at hw hx ⊢
  cases hb : beat v.cp v.dims pre with
  | error f => rw [hb] at hw; simp [bind, Except.bind] at hw
  | ok r =>
    obtain ⟨pl, b0, rest⟩ := r
    have hl : b0.length = (pre.map fdst).sum := beat_length _ _ _ _ hb
    rw [hb] at hw
    simp only [bind, Except.bind, pure, Except.pure] at hw hx ⊢
    cases rest with
    | nil => simp [fromv, fromb, bind, Except.bind] at hw
    | cons d ds =>
      rw [fromv_cons _ _ _ _ (by simp), beat1_iota] at hw ⊢
      by_cases hn : n < 0
      · rw [if_pos hn] at hw; simp [bind, Except.bind] at hw
      · rw [if_neg hn] at hw
        by_cases hi : n = 0 ∨ (inside o d.len ∧ inside (o + (n - 1) * s) d.len)
        · rw [if_pos hi] at hw
          simp only [bind, Except.bind] at hw
          cases hf : fromv (pl + o * d.step) ds post with
          | error f => rw [hf] at hw; simp at hw
          | ok r =>
            rw [hf] at hw
            simp only [pure, Except.pure, Except.ok.injEq] at hw
            subst hw
            rw [← hl, List.singleton_append, fromv_rerange, if_neg (by omega)] at hx
            by_cases hj : m = 0 ∨ (inside p n ∧ inside (p + (m - 1) * t) n)
            · rw [if_pos hj] at hx
              simp only [Except.ok.injEq] at hx
              subst hx
              obtain ⟨j1, j2⟩ := hj.resolve_left (by omega)
              obtain ⟨i1, i2⟩ := hi.resolve_left (by simp only [inside, Bool.and_eq_true, decide_eq_true_eq] at j1; omega)
              rw [if_neg (by omega), if_pos (.inr ⟨inside_between i1 i2 j1, by
                have := inside_between i1 i2 j2
                rwa [show o + s * (p + (m - 1) * t) = o + s * p + (m - 1) * (s * t) by ring] at this⟩)]
              simp only [bind, Except.bind]
              rw [show pl + (o + s * p) * d.step = pl + o * d.step + p * (s * d.step) by ring, fromv_shift, hf]
              simp only [Except.map, pure, Except.pure, List.singleton_append]
              rw [show s * t * d.step = t * (s * d.step) by ring]
            · rw [if_neg hj] at hx; simp at hx
        · rw [if_neg hi] at hw; simp [bind, Except.bind] at hw

/-- C124. `reverse` is a range with step -1, if the axis has any elements. -/
theorem C124_reverse (v : View) (k : Nat) (hk : k < v.dims.length) (h : 0 < v.dims[k].len) :
    v.reverse k = v.from [.dots (some k), .iota [(.const v.dims[k].len, .const (-1))] (.const (v.dims[k].len - 1))] := by
  have e : v.dims = v.dims.take k ++ v.dims[k] :: v.dims.drop (k + 1) := by rw [List.cons_getElem_drop_succ, List.take_append_drop]
  have hl : (v.dims.take k).length = k := by simp; omega
  have hr : v.reverse k = .ok ⟨v.dims.set k ⟨v.dims[k].len, v.dims[k].step * -1⟩, v.cp + v.dims[k].step * (v.dims[k].len - 1)⟩ := by
    simp only [View.reverse]
    rw [if_neg (by omega)]
    simp only [Int.toNat_natCast, List.getElem?_eq_getElem hk]
    rw [if_neg (by simp only [UNB]; omega), if_pos (by simp only [inside, Bool.and_eq_true, decide_eq_true_eq]; omega), if_neg (by omega)]
  rw [hr, from_fromv]
  have hf := fromv_rerange v.cp (v.dims.take k) v.dims[k] (v.dims.drop (k + 1)) v.dims[k].len (-1) (v.dims[k].len - 1)
  rw [← e, hl, if_neg (by omega), if_pos (.inr (by simp only [inside, Bool.and_eq_true, decide_eq_true_eq]; omega))] at hf
  rw [hf]
  simp only [bind, Except.bind, pure, Except.pure]
  rw [show v.dims.set k ⟨v.dims[k].len, v.dims[k].step * -1⟩ = v.dims.take k ++ ⟨v.dims[k].len, -1 * v.dims[k].step⟩ :: v.dims.drop (k + 1) by
    rw [List.set_eq_take_append_cons_drop, if_pos hk, mul_comm], mul_comm v.dims[k].step]

/-! ## Assignments -/

section
variable {V : Type}

theorem rowMajor_axis (t u : List Nat) : rowMajor (t ++ 1 :: u) = (rowMajor (t ++ u)).map fun j => j.take t.length ++ 0 :: j.drop t.length := by
  induction t with
  | nil => simp [rowMajor]
  | cons n t ih =>
    simp only [List.cons_append, rowMajor, ih, List.map_flatMap, List.map_map, List.length_cons]
    rfl

/-- C124. To set the elements of `a(..., i, ...)` is the same as to set those of `a(..., iota(1, i), ...)`, with any assignment operator. -/
theorem C124_fill (v : View) (pre post : List Sub) (hp : ∀ i ∈ pre, i ≠ .dots none) (hv : ∀ d ∈ v.dims, 0 ≤ d.len) (i st : Int) (w b : View) (s : List Nat)
    (hw : v.from (pre ++ .scalar (.const i) :: post) = .ok w) (hb : v.from (pre ++ .iota [(.const 1, .const st)] (.const i) :: post) = .ok b) (hs : Shaped w (s.map some))
    (g : Option (V → V → V)) (dyn dyn' : Bool) (z z' : List Int) (hz : ∀ i ∈ z, i = 0) (hz' : ∀ i ∈ z', i = 0) (x : Act V (Lv V)) :
    put g dyn z w.refs (.scalar x) = put g dyn' z' b.refs (.scalar x) := by
  have h1 := C124_one v pre post hp hv i st
  rw [hw, hb] at h1
  have hd : ∃ b0 q b1, b = ⟨b0 ++ ⟨1, q⟩ :: b1, b.cp⟩ ∧ b0.length = (pre.map fdst).sum := by
    rw [from_fromv, fromv_append pre _ hp] at hb
    cases hbe : beat v.cp v.dims pre with
    | error f => rw [hbe] at hb; simp [bind, Except.bind] at hb
    | ok r =>
      obtain ⟨pl, b0, rest⟩ := r
      rw [hbe] at hb
      simp only [bind, Except.bind, pure, Except.pure] at hb
      cases rest with
      | nil => simp [fromv, fromb, bind, Except.bind] at hb
      | cons d ds =>
        rw [fromv_cons _ _ _ _ (by simp), beat1_iota, if_neg (by omega)] at hb
        by_cases hi : (1 : Int) = 0 ∨ (inside i d.len ∧ inside (i + (1 - 1) * st) d.len)
        · rw [if_pos hi] at hb
          simp only [bind, Except.bind] at hb
          cases hf : fromv (pl + i * d.step) ds post with
          | error f => rw [hf] at hb; simp at hb
          | ok r =>
            rw [hf] at hb
            simp only [pure, Except.pure, Except.ok.injEq, List.singleton_append] at hb
            subst hb
            exact ⟨b0, _, r.2, rfl, beat_length _ _ _ _ hbe⟩
        · rw [if_neg hi] at hb; simp [bind, Except.bind] at hb
  obtain ⟨b0, q, b1, e, hl⟩ := hd
  rw [e] at h1 ⊢
  simp only [bind, Except.bind, from_fromv, ← hl, fromv_pick, pure, Except.pure, Except.ok.injEq] at h1
  generalize b.cp = cp at h1 ⊢
  subst h1
  have hsl := hs.length_eq
  simp only [List.length_append, List.length_map] at hsl
  obtain ⟨t, u, rfl, htl⟩ : ∃ t u, s = t ++ u ∧ t.length = b0.length := ⟨s.take b0.length, s.drop b0.length, (List.take_append_drop _ _).symm, by simp; omega⟩
  have hs' : List.Forall₂ DimLen (b0 ++ b1) ((t ++ u).map some) := hs
  have ht := List.forall₂_take b0.length hs'
  have hu := List.forall₂_drop b0.length hs'
  rw [List.take_left' rfl, ← List.map_take, List.take_left' htl] at ht
  rw [List.drop_left' rfl, ← List.map_drop, List.drop_left' htl] at hu
  have hsb : Shaped ⟨b0 ++ ⟨1, q⟩ :: b1, cp⟩ ((t ++ 1 :: u).map some) := by
    show List.Forall₂ DimLen (b0 ++ ⟨1, q⟩ :: b1) _
    rw [List.map_append, List.map_cons]
    exact List.rel_append ht (.cons rfl hu)
  rw [put_forAll g dyn z hz _ _ hs (.scalar x) [] rfl (merge_nil _), put_forAll g dyn' z' hz' _ _ hsb (.scalar x) [] rfl (merge_nil _), rowMajor_axis, forAll_map]
  refine forAll_congr fun j hj => ?_
  have hj' := mem_rowMajor.1 hj
  obtain ⟨j0, j1, rfl, k0, k1⟩ := valid_split hj'
  have hj0 := length_of_valid k0
  have ea : address ⟨b0 ++ b1, cp⟩ (j0 ++ j1) = address ⟨b0 ++ ⟨1, q⟩ :: b1, cp⟩ ((j0 ++ j1).take t.length ++ 0 :: (j0 ++ j1).drop t.length) := by
    rw [List.take_left' hj0, List.drop_left' hj0]
    simp only [address, List.map_append, List.map_cons]
    rw [dot_append _ _ _ _ (by simp; omega), dot_append _ _ _ _ (by simp; omega)]
    simp [dot]
  rw [ea]
  rfl

end

/-! ## Cases -/

/-- The equivalent ways in examples/slicing.cc:44-65, for an array of shape `{3, 5, 5}`. -/
example (v : View) (hv : Shaped v ([3, 5, 5].map some)) :
    v.from [.dots (some 1), .dots (some 1), .scalar (.const 2)] = v.from [.dots (some 2), .scalar (.const 2)] ∧
    v.from [.dots (some 2), .scalar (.const 2)] = v.from [.dots none, .scalar (.const 2)] ∧
    v.from [.scalar (.const 1), .dots (some 1), .dots (some 1)] = v.from [.scalar (.const 1)] ∧
    v.from [.scalar (.const 2), .dots (some 1), .scalar (.const 1)] = (do let w ← v.from [.scalar (.const 2)]; w.from [.dots (some 1), .scalar (.const 1)]) ∧
    v.from [.dots (some 0), .scalar (.const 0), .dots (some 0), .scalar (.const 2), .dots (some 0), .scalar (.const 3), .dots (some 0)] = v.from [.scalar (.const 0), .scalar (.const 2), .scalar (.const 3)] := by
  have hl : v.dims.length = 3 := hv.length_eq
  refine ⟨(C124_dots v [] [.scalar (.const 2)] (by simp) 1 1).symm, (C13_dots v [] [.scalar (.const 2)] 2 (by simp [fsrc, hl]) (by simp)).symm, C124_trailing v [.scalar (.const 1)] (by simp) 2 (by simp [fsrc, hl]), ?_, ?_⟩
  · rw [← List.singleton_append, C124_steps v [.scalar (.const 2)] _ (by simp)]
    congr 1; funext w
    exact (C124_nothing w [] _ (by simp)).1
  · have e1 := (C124_nothing v [] [.scalar (.const 0), .dots (some 0), .scalar (.const 2), .dots (some 0), .scalar (.const 3), .dots (some 0)] (by simp)).1
    have e2 := (C124_nothing v [.scalar (.const 0)] [.scalar (.const 2), .dots (some 0), .scalar (.const 3), .dots (some 0)] (by simp)).1
    have e3 := (C124_nothing v [.scalar (.const 0), .scalar (.const 2)] [.scalar (.const 3), .dots (some 0)] (by simp)).1
    have e4 := (C124_nothing v [.scalar (.const 0), .scalar (.const 2), .scalar (.const 3)] [] (by simp)).1
    exact e1.trans (e2.trans (e3.trans e4))

/-- `a(iota(3, 5, -2))(iota(2, 2, -1))` is `a(iota(2, 1, 2))`, with a scalar after it. -/
example : (⟨[⟨6, 10⟩, ⟨4, 1⟩], 0⟩ : View).from [.iota [(.const 2, .const 2)] (.const 1), .scalar (.const 3)] = .ok ⟨[⟨2, 20⟩], 13⟩ :=
  C124_ranges ⟨[⟨6, 10⟩, ⟨4, 1⟩], 0⟩ [] [.scalar (.const 3)] (by simp) 3 5 (-2) 2 2 (-1) (by omega) ⟨[⟨3, -20⟩], 53⟩ _ rfl rfl

/-- `reverse(a, 1)`. -/
example : (⟨[⟨2, 5⟩, ⟨5, 1⟩], 0⟩ : View).reverse 1 = (⟨[⟨2, 5⟩, ⟨5, 1⟩], 0⟩ : View).from [.dots (some 1), .iota [(.const 5, .const (-1))] (.const 4)] :=
  C124_reverse ⟨[⟨2, 5⟩, ⟨5, 1⟩], 0⟩ 1 (by decide) (by decide)

/-- `A(3) = 1` and `A(iota(1, 3)) = 1`, as in examples/slicing.cc:24-25. -/
example : put none true [] (⟨[⟨6, 1⟩], 18⟩ : View).refs (.scalar (pure (.val (1 : Int)))) = put none false [0] (⟨[⟨1, 6⟩, ⟨6, 1⟩], 18⟩ : View).refs (.scalar (pure (.val 1))) :=
  C124_fill ⟨[⟨6, 6⟩, ⟨6, 1⟩], 0⟩ [] [] (by simp) (by simp) 3 1 _ _ [6] rfl rfl (.cons rfl .nil) none true false [] [0] (by simp) (by simp) _

end Ra.Props
