import Verif.Props.Amid
/-!
# C104: reductions and assignments among other threads
-/

namespace Ra.Props
open Spec

section
variable {V : Type} {A W : Int → Prop}

theorem amid_lift {α β γ : Type} {R : α → β → Prop} {Q : γ → Prop} {x : Except Fault α} {y : Except Fault β} (h : Both R x y) {f : α → Amid V γ} {g : β → Act V γ} (hf : ∀ a b, R a b → AmidLink A W Q (f a) (g b)) :
    AmidLink A W Q (Amid.lift x >>= f) (Act.lift y >>= g) := by
  rcases h with ⟨rfl, rfl⟩ | ⟨rfl, rfl⟩ | ⟨a, b, rfl, rfl, hab⟩
  · exact amid_fault (.inl rfl)
  · exact amid_fault (.inr rfl)
  · have e1 : (Amid.lift (.ok a) >>= f : Amid V γ) = f a := pure_bind a f
    have e2 : (Act.lift (.ok b) >>= g : Act V γ) = g b := pure_bind b g
    rw [e1, e2]
    exact hf a b hab

theorem amid_mapOp {P1 P2 Q : Lv V → Prop} {op : List (Lv V) → Amid V (Lv V)} {op' : List (Lv V) → Act V (Lv V)} (h : ∀ x y, P1 x → P2 y → AmidLink A W Q (op [x, y]) (op' [x, y])) {x1 x2 : Amid V (Lv V)} {y1 y2 : Act V (Lv V)}
    (h1 : AmidLink A W P1 x1 y1) (h2 : AmidLink A W P2 x2 y2) : AmidLink A W Q (mapOp op [x1, x2]) (mapOp op' [y1, y2]) := by
  have e1 : mapOp op [x1, x2] = x1 >>= fun a => x2 >>= fun b => op [a, b] := by simp [mapOp]
  have e2 : mapOp op' [y1, y2] = y1 >>= fun a => y2 >>= fun b => op' [a, b] := by simp [mapOp]
  rw [e1, e2]
  exact amid_bind h1 fun a ha => amid_bind h2 fun b hb => h a b ha hb

theorem amid_set {B : Int → Prop} (hB : ∀ p, B p → A p ∧ W p) (x y : Lv V) (hx : GoodLv B x) (hy : GoodLv A y) : AmidLink A W (fun _ => True) (setOpA [x, y]) (setOp [x, y]) := by
  cases x with
  | val v => exact amid_fault (.inr rfl)
  | view v => cases hx
  | ref p => exact amid_bind (amid_one (loc_get hy)) fun v _ => amid_bind (amid_one (loc_write (hB p hx).1 (hB p hx).2 v)) fun _ _ => amid_pure trivial

theorem amid_upd {B : Int → Prop} (hB : ∀ p, B p → A p ∧ W p) (f : V → V → V) (x y : Lv V) (hx : GoodLv B x) (hy : GoodLv A y) : AmidLink A W (fun _ => True) (updOpA f [x, y]) (updOp f [x, y]) := by
  cases x with
  | val v => exact amid_fault (.inr rfl)
  | view v => cases hx
  | ref p =>
    exact amid_bind (amid_one (loc_get hy)) fun v _ => amid_bind (amid_one (loc_read (hB p hx).1)) fun u _ => amid_bind (amid_one (loc_write (hB p hx).1 (hB p hx).2 _)) fun _ _ => amid_pure trivial

theorem amid_fold (f : V → V → V) (c : V) (x : Lv V) (hx : GoodLv A x) : AmidLink A W (fun _ => True) (foldOpA f c [x]) (foldOp f c [x]) :=
  amid_bind (amid_one (loc_get hx)) fun _ _ => amid_pure trivial

theorem amid_traverse {B : Int → Prop} (dyn : Bool) (z : List Int) (hz : ∀ i ∈ z, i = 0) {op : List (Lv V) → Amid V (Lv V)} {op' : List (Lv V) → Act V (Lv V)}
    (hop : ∀ x y, GoodLv B x → GoodLv A y → AmidLink A W (fun _ => True) (op [x, y]) (op' [x, y])) {w t : Iter (Amid V) (Lv V)} {w' t' : Iter (Act V) (Lv V)} (hw : Twin (linkedAmid A W) (GoodLv B) w w')
    (ht : Twin (linkedAmid A W) (GoodLv A) t t') : AmidLink A W (fun _ => True) (ply (β := Unit) dyn never z (.node (mapOp op) [w, t])) (ply (β := Unit) dyn never z (.node (mapOp op') [w', t'])) := by
  refine linked_ply (linkedAmid A W) (P := fun _ => True) dyn z hz (twin_node (linkedAmid A W) (by simp) (.cons ⟨_, hw⟩ (.cons ⟨_, ht⟩ .nil)) fun ss hs j hj => ?_)
  obtain ⟨s1, _, rfl, h1, s2, _, rfl, h2, rfl⟩ := hs
  simp only [elems]
  exact amid_mapOp hop (hw.elem s1 h1 j (hj s1 (by simp))) (ht.elem s2 h2 j (hj s2 (by simp)))

mutual
theorem amid_eager {as : List Arr} (hA : Held A as) (dyn : Bool) (z : List Int) (hz : ∀ i ∈ z, i = 0) : (e : FExp V) → FExp.Safe as e →
    AmidLink A W (fun e' => FExp.Safe as e' ∧ targets e' = targets e) (Ra.FExp.eagerA dyn z as e) (Ra.FExp.eager dyn z as e)
  | .const x, _ => by simp only [Ra.FExp.eager, Ra.FExp.eagerA]; exact amid_pure ⟨trivial, rfl⟩
  | .index w f, _ => by simp only [Ra.FExp.eager, Ra.FExp.eagerA]; exact amid_pure ⟨trivial, rfl⟩
  | .iota n o s f, _ => by simp only [Ra.FExp.eager, Ra.FExp.eagerA]; exact amid_pure ⟨trivial, rfl⟩
  | .view i ops, h => by simp only [Ra.FExp.eager, Ra.FExp.eagerA]; exact amid_pure ⟨h, rfl⟩
  | .gather n i ops mk t, ⟨h1, h2, h3, h4⟩ => by
    simp only [Ra.FExp.eager, Ra.FExp.eagerA]
    exact amid_bind (amid_eagers hA dyn z hz t h2) fun t' ht => amid_pure ⟨⟨fun e => h1 (List.eq_nil_of_length_eq_zero (by rw [← ht.1, e]; rfl)), ht.2.1, by rw [ht.1]; exact h3, h4⟩, rfl⟩
  | .map f cranks t, ⟨h1, h2⟩ => by
    simp only [Ra.FExp.eager, Ra.FExp.eagerA]
    exact amid_bind (amid_eagers hA dyn z hz t h2) fun t' ht => amid_pure ⟨⟨fun e => h1 (List.eq_nil_of_length_eq_zero (by rw [← ht.1, e]; rfl)), ht.2.1⟩, rfl⟩
  | .pick sel t, ⟨h1, h2⟩ => by
    simp only [Ra.FExp.eager, Ra.FExp.eagerA]
    refine amid_bind (amid_eagers hA dyn z hz t h2) fun t' ht => amid_pure ⟨⟨fun e => h1 (List.eq_nil_of_length_eq_zero (by rw [← ht.1, e]; rfl)), ht.2.1⟩, ?_⟩
    simp only [targets]
    cases t with
    | nil => exact absurd rfl h1
    | cons e t =>
      cases t' with
      | nil => simp at ht
      | cons e' t' => exact ht.2.2 1
  | .fold f x0 e, h => by
    simp only [Ra.FExp.eager, Ra.FExp.eagerA]
    refine amid_bind (amid_eager hA dyn z hz e h) fun e' he => amid_lift (linked_exp (linkedState A W) hA A e' he.1 (held_held hA _)) fun t t' ht => ?_
    refine amid_bind (P := fun _ => True) ?_ fun x _ => amid_pure ⟨trivial, rfl⟩
    unfold forEachRef
    refine amid_bind (P := fun _ => True) ?_ fun r _ => amid_pure trivial
    refine linked_weaken (linkedAmid A W) (linked_ply (linkedState A W) (P := fun _ => True) dyn z hz (twin_node (linkedState A W) (by simp) (.cons ⟨_, ht⟩ .nil) fun ss hs j hj => ?_) x0) fun _ _ => trivial
    obtain ⟨s1, _, rfl, h1, rfl⟩ := hs
    simp only [elems]
    refine linked_mapOp (linkedState A W) (P := GoodLv A) 1 (fun l hl hx => ?_) rfl (.cons (ht.elem s1 h1 j (hj s1 (by simp))) .nil)
    obtain ⟨x, rfl⟩ := List.length_eq_one_iff.mp hl
    exact (linkedState A W).bind (P := fun _ => True) (fun c => amid_pure trivial) fun c _ => (linkedState A W).bind (P := fun _ => True) (fun c' => amid_bind (amid_fold f c x (hx x (by simp))) fun _ _ => amid_pure trivial) fun c' _ =>
      (linkedState A W).bind (P := fun _ => True) (fun c => amid_pure trivial) fun _ _ => (linkedState A W).pure trivial
theorem amid_eagers {as : List Arr} (hA : Held A as) (dyn : Bool) (z : List Int) (hz : ∀ i ∈ z, i = 0) : (t : List (FExp V)) → FExp.Safes as t →
    AmidLink A W (fun t' => t'.length = t.length ∧ FExp.Safes as t' ∧ ∀ k : Nat, targetsAll (t'.drop k) = targetsAll (t.drop k)) (Ra.FExp.eagersA dyn z as t) (Ra.FExp.eagers dyn z as t)
  | [], _ => by simp only [Ra.FExp.eagers, Ra.FExp.eagersA]; exact amid_pure ⟨rfl, trivial, fun _ => rfl⟩
  | e :: t, ⟨h1, h2⟩ => by
    simp only [Ra.FExp.eagers, Ra.FExp.eagersA]
    refine amid_bind (amid_eager hA dyn z hz e h1) fun e' he => amid_bind (amid_eagers hA dyn z hz t h2) fun t' ht => amid_pure ⟨by simp [ht.1], ⟨he.1, ht.2.1⟩, fun k => ?_⟩
    cases k with
    | zero =>
      have := ht.2.2 0
      simp only [List.drop_zero] at this
      simp only [List.drop_zero, targetsAll, he.2, this]
    | succ k => exact ht.2.2 k
end

theorem amid_assign {B : Int → Prop} {as : List Arr} (hA : Held A as) (dyn : Bool) (z : List Int) (hz : ∀ i ∈ z, i = 0) {op : List (Lv V) → Amid V (Lv V)} {op' : List (Lv V) → Act V (Lv V)}
    (hop : ∀ x y, GoodLv B x → GoodLv A y → AmidLink A W (fun _ => True) (op [x, y]) (op' [x, y])) (d e : FExp V) (hd : FExp.Safe as d) (he : FExp.Safe as e) (hB : HeldAt B as (targets d)) :
    AmidLink A W (fun _ => True) (fassignA dyn z as op d e) (fassign dyn z as op' d e) := by
  unfold fassignA fassign
  exact amid_bind (amid_eager hA dyn z hz d hd) fun d' hd => amid_bind (amid_eager hA dyn z hz e he) fun e' he => amid_lift (linked_exp (linkedAmid A W) hA B d' hd.1 (by rw [hd.2]; exact hB)) fun w w' hw =>
    amid_lift (linked_exp (linkedAmid A W) hA A e' he.1 (held_held hA _)) fun t t' ht => amid_bind (amid_traverse dyn z hz hop hw ht) fun _ _ => amid_pure trivial

/-! Whole arrays. -/

theorem twin_array {B : Int → Prop} {as : List Arr} {i : Nat} (hB : HeldAt B as [i]) {a : Arr} (ha : as[i]? = some a) :
    Twin (linkedAmid A W) (GoodLv (V := V) B) (.cell a.dims a.base fun p => pure (.ref p)) a.view.refs := by
  obtain ⟨s, h1, h2⟩ := hB i (by simp) a ha
  have hsh : HasShape (a.view.refs : Iter (Act V) (Lv V)) (s.map some) := h1
  refine twin_cell (linkedAmid A W) hsh.wf fun s' hs' j hj => amid_pure ?_
  have : s' = s.map some := hasShape_unique (a := (a.view.refs : Iter (Act V) (Lv V))) hs' hsh
  subst this
  exact h2 j hj

theorem amid_exp {as : List Arr} (hA : Held A as) (e : Exp V) : (Ra.Exp.iterA as e = none ∧ Ra.Exp.iter as e = none) ∨ ∃ t t', Ra.Exp.iterA as e = some t ∧ Ra.Exp.iter as e = some t' ∧ Twin (linkedAmid A W) (GoodLv A) t t' := by
  induction e with
  | const x => exact .inr ⟨_, _, rfl, rfl, twin_scalar _ (amid_pure trivial)⟩
  | arr i =>
    simp only [Ra.Exp.iter, Ra.Exp.iterA]
    cases ha : as[i]? with
    | none => exact .inl ⟨rfl, rfl⟩
    | some a => exact .inr ⟨_, _, rfl, rfl, twin_array (held_held hA _) ha⟩
  | op f a b iha ihb =>
    simp only [Ra.Exp.iter, Ra.Exp.iterA]
    rcases iha with ⟨h1, h2⟩ | ⟨t, t', h1, h2, ht⟩
    · exact .inl (by rw [h1, h2]; exact ⟨rfl, rfl⟩)
    rcases ihb with ⟨g1, g2⟩ | ⟨u, u', g1, g2, hu⟩
    · exact .inl (by rw [h1, h2, g1, g2]; exact ⟨rfl, rfl⟩)
    refine .inr ⟨_, binaryOp f t' u', by rw [h1, g1], by rw [h2, g2], ?_⟩
    unfold binaryOp valOp
    refine twin_node _ (by simp) (.cons ⟨_, ht⟩ (.cons ⟨_, hu⟩ .nil)) fun ss hs j hj => ?_
    obtain ⟨s1, _, rfl, k1, s2, _, rfl, k2, rfl⟩ := hs
    simp only [elems]
    refine amid_mapOp (P1 := GoodLv A) (P2 := GoodLv A) (fun x y hx hy => ?_) (ht.elem s1 k1 j (hj s1 (by simp))) (hu.elem s2 k2 j (hj s2 (by simp)))
    simp only [List.mapM_cons, List.mapM_nil, bind_assoc, pure_bind]
    exact amid_bind (amid_one (loc_get hx)) fun u _ => amid_bind (amid_one (loc_get hy)) fun v _ => amid_pure trivial

/-- `a = e` and `a OP e`. -/
theorem amid_whole {B : Int → Prop} {as : List Arr} (hA : Held A as) (dyn : Bool) (z : List Int) (hz : ∀ i ∈ z, i = 0) {op : List (Lv V) → Amid V (Lv V)} {op' : List (Lv V) → Act V (Lv V)}
    (hop : ∀ x y, GoodLv B x → GoodLv A y → AmidLink A W (fun _ => True) (op [x, y]) (op' [x, y])) (i : Nat) (e : Exp V) (hB : HeldAt B as [i]) :
    AmidLink A W (fun _ => True) (assignA dyn z as op i e) (match as[i]?, e.iter as with
      | some a, some t => do
        let _ ← ply (β := Unit) dyn never z (.node (mapOp op') [a.view.refs, t])
        pure ()
      | _, _ => fault .abort) := by
  unfold assignA
  cases ha : as[i]? with
  | none => exact amid_fault (.inr rfl)
  | some a =>
    rcases amid_exp (W := W) hA e with ⟨h1, h2⟩ | ⟨t, t', h1, h2, ht⟩
    · rw [h1, h2]
      exact amid_fault (.inr rfl)
    · rw [h1, h2]
      exact amid_bind (amid_traverse dyn z hz hop (twin_array hB ha) ht) fun _ _ => amid_pure trivial

/-- `a(j ...) = x`. -/
theorem amid_elem {B : Int → Prop} (hB : ∀ p, B p → A p ∧ W p) {b : View} {s : List Length} (hb : Shaped b s) (hA : ∀ j, InRange s j → B (address b j)) (i : List Int) (hi : i.length = b.dims.length) (x : V) :
    AmidLink A W (fun _ => True) (b.elemAt (fun p => liftM (Act.write p x : Act V Unit)) i) (b.elemAt (fun p => Act.write p x) i) :=
  linked_elemAt (linkedAmid A W) (fun p hp => amid_one (loc_write (hB p hp).1 (hB p hp).2 x)) hb hA i hi

end
end Ra.Props
