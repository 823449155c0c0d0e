import Verif.Spec.Race
import Verif.Props.AmidThreads
/-!
# C104: there are no data races
-/

namespace Ra.Props
open Spec

section
variable {V : Type}

/-! What the operations of a container depend on. -/

theorem freeFor_alike {μ1 μ2 : Mem V} (h : SameAlloc μ1 μ2) (a : Arr) (b : Int) (n : Nat) : freeFor μ2 a b n = freeFor μ1 a b n := by
  unfold freeFor
  congr 1
  funext i
  have := h (b + i)
  cases h1 : μ1 (b + i) <;> cases h2 : μ2 (b + i) <;> simp_all

/-- The results of an operation depend only on what's allocated, and if it fails the memory is as before. -/
def Likewise {α : Type} (f : Mem V → Except Fault Unit × α × Mem V) : Prop :=
  (∀ μ1 μ2, SameAlloc μ1 μ2 → (f μ2).1 = (f μ1).1 ∧ (f μ2).2.1 = (f μ1).2.1) ∧ ∀ μ e, (f μ).1 = .error e → (f μ).2.2 = μ

theorem store_alike (o : Option Int) (fill : Nat → V) (k : Int) (a : Arr) : Likewise (storeResize o fill k a) := by
  constructor
  · intro μ1 μ2 h
    unfold storeResize
    split
    · exact ⟨rfl, rfl⟩
    · split
      · exact ⟨rfl, rfl⟩
      · split
        · exact ⟨rfl, rfl⟩
        · rw [freeFor_alike h]
          split <;> exact ⟨rfl, rfl⟩
  · intro μ e he
    rcases hx : storeResize o fill k a μ with ⟨r, a', μ'⟩
    rw [hx] at he
    simp only at he
    subst he
    exact (storeResize_kind hx).2

theorem alike_const {α : Type} (r : Except Fault Unit) (a : α) : Likewise (V := V) (fun μ => (r, a, μ)) := ⟨fun _ _ _ => ⟨rfl, rfl⟩, fun _ _ _ => rfl⟩

theorem resize_alike (o : Option Int) (fill : Nat → V) (n : Int) (a : Arr) : Likewise (Arr.resize o fill n a) := by
  unfold Arr.resize
  cases a.dims with
  | nil => exact alike_const _ _
  | cons d ds => exact store_alike _ _ _ _

theorem resizeShape_alike (o : Option Int) (fill : Nat → V) (s : List Int) (a : Arr) : Likewise (Arr.resizeShape o fill s a) := by
  unfold Arr.resizeShape
  rcases a.fill s with ⟨_ | _, a'⟩
  · exact alike_const _ _
  · exact store_alike _ _ _ _

theorem pushBack_alike (o : Option Int) (t : V) (a : Arr) : Likewise (Arr.pushBack o t a) := by
  unfold Arr.pushBack
  cases a.dims with
  | nil => exact alike_const _ _
  | cons d ds =>
    cases ds with
    | cons _ _ => exact alike_const _ _
    | nil =>
      obtain ⟨h1, h2⟩ := store_alike o (fun _ => t) (a.n + 1) a
      constructor
      · intro μ1 μ2 h
        have := h1 μ1 μ2 h
        rcases hx : storeResize o (fun _ => t) (a.n + 1) a μ1 with ⟨_ | _, a1, m1⟩ <;> rcases hy : storeResize o (fun _ => t) (a.n + 1) a μ2 with ⟨_ | _, a2, m2⟩ <;> rw [hx, hy] at this <;> simp only [hx, hy] <;> simp_all
      · intro μ e
        have := h2 μ e
        rcases hx : storeResize o (fun _ => t) (a.n + 1) a μ with ⟨_ | _, a1, m1⟩ <;> rw [hx] at this <;> simp only [hx] <;> simp_all

theorem popBack_alike (a : Arr) : Likewise (V := V) (Arr.popBack a) := by
  unfold Arr.popBack
  cases a.dims with
  | nil => exact alike_const _ _
  | cons d ds =>
    cases ds with
    | cons _ _ => exact alike_const _ _
    | nil =>
      by_cases h1 : 0 < d.len
      · by_cases h2 : a.n = 0
        · simp only [if_pos h1, if_pos h2]
          exact alike_const _ _
        · simp only [if_pos h1, if_neg h2]
          exact ⟨fun _ _ _ => ⟨rfl, rfl⟩, fun _ _ h => by cases h⟩
      · simp only [if_neg h1]
        exact alike_const _ _

theorem copy_alike (o : Option Int) (a b : Arr) : Likewise (V := V) (Arr.copyFrom o a b) := by
  unfold Arr.copyFrom
  cases o with
  | none => exact alike_const _ _
  | some c =>
    constructor
    · intro μ1 μ2 h
      simp only [freeFor_alike h]
      split <;> exact ⟨rfl, rfl⟩
    · intro μ e
      simp only
      split
      · intro h; cases h
      · exact fun _ => rfl

theorem create_alike (rk : Option Nat) (o : Option Int) (fill : Nat → V) (s : List Int) :
    (∀ μ1 μ2, SameAlloc μ1 μ2 → (Arr.create rk o fill s μ2).1 = (Arr.create rk o fill s μ1).1) ∧ ∀ μ e, (Arr.create rk o fill s μ).1 = .error e → (Arr.create rk o fill s μ).2 = μ := by
  unfold Arr.create
  rcases Arr.fill ⟨rk, List.replicate (rk.getD 0) ⟨0, 0⟩, 0, 0⟩ s with ⟨_ | n, a⟩
  · exact ⟨fun _ _ _ => rfl, fun _ _ _ => rfl⟩
  · by_cases hn : 0 ≤ n
    · simp only [if_pos hn]
      obtain ⟨h1, h2⟩ := store_alike o fill n a
      constructor
      · intro μ1 μ2 h
        have := h1 μ1 μ2 h
        revert this
        rcases storeResize o fill n a μ1 with ⟨_ | _, a1, m1⟩ <;> rcases storeResize o fill n a μ2 with ⟨_ | _, a2, m2⟩ <;> simp_all
      · intro μ e
        rcases storeResize o fill n a μ with ⟨_ | _, a1, m1⟩ <;> simp
    · simp [if_neg hn]

theorem on_alike (i : Nat) (f : Arr → Mem V → Except Fault Unit × Arr × Mem V) (as : List Arr) (hf : ∀ a, Likewise (f a)) : Likewise (onArr i f as) := by
  unfold onArr
  cases as[i]? with
  | none => exact alike_const _ _
  | some a => exact ⟨fun μ1 μ2 h => ⟨((hf a).1 μ1 μ2 h).1, by simp only [((hf a).1 μ1 μ2 h).2]⟩, (hf a).2⟩

theorem op_alike (as : List Arr) (o : Op V) (hr : ∀ p, o ≠ .run p) : Likewise (fun μ => o.step as μ) := by
  cases o with
  | default rk =>
    simp only [Op.step]
    split <;> exact alike_const _ _
  | create rk o fill s =>
    obtain ⟨h1, h2⟩ := create_alike rk o fill s
    simp only [Op.step]
    constructor
    · intro μ1 μ2 h
      have := h1 μ1 μ2 h
      rcases hx : Arr.create rk o fill s μ1 with ⟨_ | _, m1⟩ <;> rcases hy : Arr.create rk o fill s μ2 with ⟨_ | _, m2⟩ <;> rw [hx, hy] at this <;> simp only [hx, hy] <;> simp_all
    · intro μ e
      have := h2 μ e
      rcases hx : Arr.create rk o fill s μ with ⟨_ | _, m1⟩ <;> rw [hx] at this <;> simp only [hx] <;> simp_all
  | resize i o fill n => exact on_alike i _ as fun a => resize_alike o fill n a
  | resizeShape i o fill s => exact on_alike i _ as fun a => resizeShape_alike o fill s a
  | pushBack i o t => exact on_alike i _ as fun a => pushBack_alike o t a
  | popBack i => exact on_alike i _ as fun a => popBack_alike a
  | copy i j o =>
    simp only [Op.step]
    cases as[j]? with
    | none => exact alike_const _ _
    | some b =>
      simp only
      split
      · exact alike_const _ _
      · refine on_alike i _ as fun a => ?_
        by_cases hrk : a.rk = b.rk
        · simp only [if_pos hrk]
          exact copy_alike o a b
        · simp only [if_neg hrk]
          exact alike_const _ _
  | swap i j =>
    simp only [Op.step]
    split
    · split <;> exact alike_const _ _
    · exact alike_const _ _
  | run p => exact absurd rfl (hr p)

/-! What the next step has to do with. -/

/-- The next step only writes the memory in `O`, and only reads that and what's in `S`. -/
def NodeOk {α : Type} (S O : Int → Prop) (x : Amid V α) (μ : Mem V) : Prop := ∀ p, (μ p).isSome → (WritesAt x μ p → O p) ∧ (ReadsAt x μ p → S p ∨ O p)

theorem node_done {α : Type} {S O : Int → Prop} {r : Except Fault α} {μ : Mem V} : NodeOk S O (.done r) μ := by
  refine fun p _ => ⟨?_, ?_⟩
  · rintro ⟨μ', _, h⟩
    exact absurd rfl h
  · rintro ⟨μ1, μ2, _, _, _, h | ⟨q, _, h | h⟩⟩
    · exact absurd rfl h
    · exact absurd rfl h
    · exact absurd rfl h

theorem node_bind {α β : Type} {S O : Int → Prop} {g : Mem V → Mem V} {k : Mem V → Amid V α} {μ : Mem V} (f : α → Amid V β) (h : NodeOk S O (.step g k) μ) : NodeOk S O ((Amid.step g k).andThen f) μ := by
  refine fun p hp => ⟨fun hw => (h p hp).1 hw, fun hr => (h p hp).2 ?_⟩
  obtain ⟨μ1, μ2, h1, h2, h3, h4⟩ := hr
  refine ⟨μ1, μ2, h1, h2, h3, h4.imp_left fun h5 h6 => h5 ?_⟩
  simp only [Amid.next] at h6
  simp only [Amid.andThen, Amid.next, h6]

theorem node_outcome {α : Type} {S O : Int → Prop} {x : Amid V α} {μ : Mem V} (h : NodeOk S O x μ) : NodeOk S O x.outcome μ := by
  cases x with
  | done r => exact node_done
  | step g k =>
    refine fun p hp => ⟨fun hw => (h p hp).1 hw, fun hr => (h p hp).2 ?_⟩
    obtain ⟨μ1, μ2, h1, h2, h3, h4⟩ := hr
    refine ⟨μ1, μ2, h1, h2, h3, h4.imp_left fun h5 h6 => h5 ?_⟩
    simp only [Amid.next] at h6
    simp only [Amid.outcome, Amid.next, h6]

theorem node_local {α : Type} {A W S O : Int → Prop} {P : α → Prop} {x : Amid V α} {μ : Mem V} (hx : Local A W P x) (hμ : ∀ p, A p → (μ p).isSome) (hWA : ∀ p, W p → A p) (hWO : ∀ p, W p → O p)
    (hA : ∀ p, A p → S p ∨ O p) : NodeOk S O x μ := by
  cases x with
  | done r => exact node_done
  | step f k =>
    refine fun p hp => ⟨?_, ?_⟩
    · rintro ⟨μ', h1, h2⟩
      by_contra ho
      exact h2 ((hx μ' fun q hq => by rw [h1 q]; exact hμ q hq).2.1 p fun hw => ho (hWO p hw))
    · rintro ⟨μ1, μ2, h1, h2, h3, h4⟩
      by_contra ho
      have hag : ∀ q, A q → μ2 q = μ1 q := fun q hq => (h3 q (by rintro rfl; exact ho (hA q hq))).symm
      have e1 := hx μ1 fun q hq => by rw [h1 q]; exact hμ q hq
      have e2 := hx μ2 fun q hq => by rw [h2 q]; exact hμ q hq
      obtain ⟨r1, r2⟩ := e1.2.2.2 μ2 hag
      rcases h4 with h4 | ⟨q, h4, h5⟩
      · exact h4 r1.symm
      · by_cases hq : A q
        · exact h4 (r2 q hq).symm
        · have u1 := e1.2.1 q fun hw => hq (hWA q hw)
          have u2 := e2.2.1 q fun hw => hq (hWA q hw)
          rcases h5 with h5 | h5
          · exact h5 u1
          · exact h5 u2

variable {S O : Int → Prop} {k : Nat} {as : List Arr} {μ μo : Mem V}

open Classical in
/-- The memory of the thread, in another one with the same allocated. -/
theorem inv_alike (hI : AmidInv S O k as μ μo) {μ1 m : Mem V} (hin : ∀ p, S p ∨ O p → μ1 p = μ p) (h : SameAlloc μ1 m) : AmidInv S O k as m fun p => if StorageOf as p then m p else none := by
  refine ⟨usable_keep hI.usable (fun p hp => ?_) (fun p hp => ?_), fun p hp => ?_, fun p hp => ?_, hI.shared, hI.len⟩
  · rw [if_neg hp]
    cases hm : μo p with
    | none => rfl
    | some v => exact absurd ((inv_storage hI p).mp (by rw [hm]; rfl)) hp
  · have h1 := (inv_storage hI p).mpr hp
    rw [if_pos hp, h p, hin p (hI.mine p h1), hI.inn p h1]
    exact h1
  · split at hp
    · next h1 => rw [if_pos h1]
    · cases hp
  · split at hp
    · next h1 => exact hI.mine p ((inv_storage hI p).mpr h1)
    · cases hp

open Classical in
/-- One step that may get memory or leave it. -/
theorem node_one {α : Type} (hI : AmidInv S O k as μ μo) {μ1 : Mem V} (hin : ∀ p, S p ∨ O p → μ1 p = μ p) {y : Act V α} (D : Except Fault α → Prop) (h1 : ∀ m1 m2, SameAlloc m1 m2 → (y m2).1 = (y m1).1)
    (h2 : ∀ m, D (y m).1 → (y m).2 = m) (h3 : ∀ mo m, Usable bareMem as mo → Inn mo m → ¬ D (y m).1 → Framed mo (y mo).2 m (y m).2 ∧ ∀ p, S p → (y mo).2 p = mo p) : NodeOk S O (Amid.one y) μ1 := by
  refine fun p hp => ⟨?_, ?_⟩
  · rintro ⟨m, hm, hw⟩
    change (y m).2 p ≠ m p at hw
    have hI' := inv_alike hI hin hm
    by_cases hD : D (y m).1
    · exact absurd (congrFun (h2 m hD) p) hw
    · obtain ⟨h4, h5⟩ := h3 _ m hI'.usable hI'.inn hD
      rcases (inv_step hI' hI'.inn h4 h5 hI'.shared hI'.len).minds.1 p hw with h6 | h6
      · exact h6
      · have := hm p
        rw [h6, hp] at this
        cases this
  · rintro ⟨m1, m2, e1, e2, e3, e4⟩
    by_contra ho
    have hI1 := inv_alike hI hin e1
    have hI2 := inv_alike hI hin e2
    have hag : ∀ q, S q ∨ O q → m2 q = m1 q := fun q hq => (e3 q (by rintro rfl; exact ho hq)).symm
    have hr := h1 m1 m2 fun q => by rw [e1 q, e2 q]
    rcases e4 with e4 | ⟨q, e4, e5⟩
    · exact e4 (by simp only [Amid.one, Amid.next, hr])
    · change (y m1).2 q ≠ (y m2).2 q at e4
      change (y m1).2 q ≠ m1 q ∨ (y m2).2 q ≠ m2 q at e5
      by_cases hD : D (y m1).1
      · rcases e5 with e5 | e5
        · exact e5 (congrFun (h2 m1 hD) q)
        · exact e5 (congrFun (h2 m2 (by rw [hr]; exact hD)) q)
      · obtain ⟨f1, _⟩ := h3 _ m1 hI1.usable hI1.inn hD
        have hmo : (fun p => if StorageOf as p then m2 p else none) = fun p => if StorageOf as p then m1 p else none := by
          funext q
          split
          · next hq => exact hag q (hI.mine q ((inv_storage hI q).mpr hq))
          · rfl
        rw [hmo] at hI2
        obtain ⟨f2, _⟩ := h3 _ m2 hI2.usable hI2.inn (by rw [hr]; exact hD)
        cases hq : (y fun p => if StorageOf as p then m1 p else none).2 q with
        | some v =>
          rw [f1.inn q (by rw [hq]; rfl), f2.inn q (by rw [hq]; rfl)] at e4
          exact e4 rfl
        | none =>
          have g1 := f1.gone q hq
          have g2 := f2.gone q hq
          by_cases hs : ((fun p => if StorageOf as p then m1 p else none) q).isSome = true
          · rw [if_pos hs] at g1 g2
            rw [g1, g2] at e4
            exact e4 rfl
          · rw [if_neg hs] at g1 g2
            rcases e5 with e5 | e5
            · exact e5 g1
            · exact e5 g2

/-! The same for all the steps. -/

/-- The others leave the thread's memory alone. -/
def Quietly (S : Int → Prop) : (Int → Prop) → Mem V → Steps V → Prop
  | _, _, [] => True
  | O, μ, (b, a) :: h => (∀ p, S p ∨ O p → b p = μ p) ∧ Quietly S (fun p => (O p ∨ b p = none) ∧ (a p).isSome) a h

theorem quiet_append (S O : Int → Prop) (μ : Mem V) (h h' : Steps V) : Quietly S O μ (h ++ h') ↔ Quietly S O μ h ∧ Quietly S (Belongs O h) (memAfter μ h) h' := by
  induction h generalizing O μ with
  | nil => simp [Quietly, Belongs, memAfter]
  | cons e h ih =>
    simp only [List.cons_append, Quietly, ih, Belongs, memAfter]
    exact and_assoc.symm

theorem quiet_untroubled {hs : Steps V} (h : Quietly S O μ hs) : ¬ Troubled S O μ hs := by
  rintro ⟨h1, e, h2, rfl, _, _, p, h3, h4⟩
  exact h4 (((quiet_append S O μ h1 (e :: h2)).mp h).2.1 p h3)

/-- Every step that the thread gets to only writes what belongs to it, and only reads that or what's shared, if the others leave that alone. -/
def Gentle {α : Type} (S O : Int → Prop) (μ : Mem V) (x : Amid V α) : Prop :=
  ∀ hs y, Leads x hs y → Quietly S O μ hs → ∀ μ1 : Mem V, (∀ p, S p ∨ Belongs O hs p → μ1 p = memAfter μ hs p) → NodeOk S (Belongs O hs) y μ1

theorem leads_done {α : Type} {r : Except Fault α} {hs : Steps V} {y : Amid V α} (h : Leads (.done r) hs y) : hs = [] ∧ y = .done r := by
  cases hs with
  | nil => exact ⟨rfl, h.symm⟩
  | cons e hs =>
    obtain ⟨f, k, h, _⟩ := h
    cases h

theorem gentle_done {α : Type} {r : Except Fault α} : Gentle S O μ (.done r) := by
  intro hs y hl _ μ1 _
  obtain ⟨rfl, rfl⟩ := leads_done hl
  exact node_done

theorem leads_bind {α β : Type} (x : Amid V α) (f : α → Amid V β) (hs : Steps V) (y : Amid V β) (h : Leads (x.andThen f) hs y) :
    (∃ g k, Leads x hs (.step g k) ∧ y = (Amid.step g k).andThen f) ∨ (∃ e, y = .done (.error e)) ∨ ∃ h1 h2 a, hs = h1 ++ h2 ∧ Leads x h1 (.done (.ok a)) ∧ Leads (f a) h2 y := by
  induction x generalizing hs with
  | done r =>
    cases r with
    | error e => exact .inr (.inl ⟨e, (leads_done h).2⟩)
    | ok a => exact .inr (.inr ⟨[], hs, a, rfl, rfl, h⟩)
  | step g k ih =>
    cases hs with
    | nil => exact .inl ⟨g, k, rfl, h.symm⟩
    | cons e hs =>
      obtain ⟨b, a⟩ := e
      obtain ⟨f', k', he, rfl, hl⟩ := h
      cases he
      rcases ih b hs hl with ⟨g', k', h1, h2⟩ | h1 | ⟨h1, h2, c, rfl, h4, h5⟩
      · exact .inl ⟨g', k', ⟨g, k, rfl, rfl, h1⟩, h2⟩
      · exact .inr (.inl h1)
      · exact .inr (.inr ⟨(b, g b) :: h1, h2, c, rfl, ⟨g, k, rfl, rfl, h4⟩, h5⟩)

theorem gentle_bind {α β : Type} {x : Amid V α} {f : α → Amid V β} (hx : Gentle S O μ x)
    (hf : ∀ hs a, Leads x hs (.done (.ok a)) → Quietly S O μ hs → Gentle S (Belongs O hs) (memAfter μ hs) (f a)) : Gentle S O μ (x >>= f) := by
  intro hs y hl hq μ1 h1
  rcases leads_bind x f hs y hl with ⟨g, k, h2, rfl⟩ | ⟨e, rfl⟩ | ⟨hs1, hs2, a, rfl, h3, h4⟩
  · exact node_bind f (hx hs _ h2 hq μ1 h1)
  · exact node_done
  · rw [quiet_append] at hq
    rw [belongs_append, memAfter_append] at h1
    rw [belongs_append]
    exact hf hs1 a h3 hq.1 hs2 y h4 hq.2 μ1 h1

theorem leads_outcome {α : Type} (x : Amid V α) (hs : Steps V) (y : Amid V (Except Fault α)) (h : Leads x.outcome hs y) : ∃ y', Leads x hs y' ∧ y = y'.outcome := by
  induction x generalizing hs with
  | done r =>
    obtain ⟨rfl, rfl⟩ := leads_done h
    exact ⟨.done r, rfl, rfl⟩
  | step g k ih =>
    cases hs with
    | nil => exact ⟨.step g k, rfl, h.symm⟩
    | cons e hs =>
      obtain ⟨b, a⟩ := e
      obtain ⟨f', k', he, rfl, hl⟩ := h
      cases he
      obtain ⟨y', h1, h2⟩ := ih b hs hl
      exact ⟨y', ⟨g, k, rfl, rfl, h1⟩, h2⟩

theorem gentle_outcome {α : Type} {x : Amid V α} (hx : Gentle S O μ x) : Gentle S O μ x.outcome := by
  intro hs y hl hq μ1 h1
  obtain ⟨y', h2, rfl⟩ := leads_outcome x hs y hl
  exact node_outcome (hx hs y' h2 hq μ1 h1)

theorem gentle_one {α : Type} {y : Act V α} (h : ∀ μ1 : Mem V, (∀ p, S p ∨ O p → μ1 p = μ p) → NodeOk S O (Amid.one y) μ1) : Gentle S O μ (Amid.one y) := by
  intro hs x hl hq μ1 h1
  cases hs with
  | nil =>
    cases hl
    exact h μ1 h1
  | cons e hs =>
    obtain ⟨f, k, he, _, hl⟩ := hl
    cases he
    obtain ⟨rfl, rfl⟩ := leads_done hl
    exact node_done

theorem gentle_local {α : Type} {P : α → Prop} (hI : AmidInv S O k as μ μo) {x : Amid V α} (hx : Local (StorageOf as) (StorageOf (as.drop k)) P x) : Gentle S O μ x := by
  have hWA : ∀ p, StorageOf (as.drop k) p → StorageOf as p := fun p hp => (storage_split as k p).mpr (.inr hp)
  have hA : ∀ p, StorageOf as p → S p ∨ O p := fun p hp => hI.mine p ((inv_storage hI p).mpr hp)
  have hWO : ∀ p, StorageOf (as.drop k) p → O p := fun p hp => (hA p (hWA p hp)).resolve_left fun h => storage_apart hI.usable.1 p ((hI.shared p).mp h) hp
  have hμ : ∀ p, StorageOf as p → (μ p).isSome := fun p hp => by
    have := (inv_storage hI p).mpr hp
    rw [hI.inn p this]
    exact this
  clear hI
  intro hs y hl hq μ1 h1
  induction hs generalizing x O μ with
  | nil =>
    cases hl
    exact node_local hx (fun p hp => by rw [h1 p (hA p hp)]; exact hμ p hp) hWA hWO hA
  | cons e hs ih =>
    obtain ⟨b, a⟩ := e
    obtain ⟨f, g, rfl, rfl, hl⟩ := hl
    have hb : ∀ p, StorageOf as p → (b p).isSome := fun p hp => by rw [hq.1 p (hA p hp)]; exact hμ p hp
    obtain ⟨e1, e2, e3, _⟩ := hx b hb
    exact ih e3 (fun p hp => (hA p hp).imp_right fun h => ⟨.inl h, e1 p hp⟩) (fun p hp => ⟨.inl (hWO p hp), e1 p (hWA p hp)⟩) e1 hl hq.2 h1

/-- The thread after some of its steps. -/
theorem after_link {α : Type} {P : α → Prop} (hI : AmidInv S O k as μ μo) {x : Amid V α} {y : Act V α} (hx : AmidLink (StorageOf as) (StorageOf (as.drop k)) P x y) {hs : Steps V} {r : Except Fault α}
    (hl : Leads x hs (.done r)) (hq : Quietly S O μ hs) : Ends P r ∧ ∃ μo', AmidInv S (Belongs O hs) k as (memAfter μ hs) μo' := by
  have hrun := (leads_run x _ [] hs μ hl).2 r rfl
  rcases inv_link hI hx (othersOf ([] ++ hs)) [] with h | ⟨h1, h2, h3, h4⟩
  · rw [hrun] at h
    exact absurd h (quiet_untroubled hq)
  · rw [hrun] at h1 h4
    simp only at h1
    rw [← h1] at h2
    exact ⟨h2, _, inv_of_out h4 h3⟩

/-! Operations and programs. -/

theorem gentle_quiet {α β : Type} {P : α → Prop} (hI : AmidInv S O k as μ μo) {x : Amid V α} {y : Act V α} (hx : AmidLink (StorageOf as) (StorageOf (as.drop k)) P x y) (f : Except Fault α → β) :
    Gentle S O μ (do let r ← Amid.outcome x; pure (f r) : Amid V β) := gentle_bind (gentle_outcome (gentle_local hI hx.2)) fun _ _ _ _ => gentle_done

theorem gentle_op (hI : AmidInv S O k as μ μo) (o : Op V) (hr : ∀ p, o ≠ .run p) (ho : OpSpares k o) : Gentle S O μ (Amid.one fun μ => ((.ok ((o.step as μ).1, (o.step as μ).2.1) : Except Fault (Except Fault Unit × List Arr)), (o.step as μ).2.2)) := by
  obtain ⟨a1, a2⟩ := op_alike as o hr
  refine gentle_one fun μ1 h1 => node_one hI h1 (fun r => ∃ e as', r = .ok (.error e, as')) (fun m1 m2 h => by simp only [(a1 m1 m2 h).1, (a1 m1 m2 h).2]) ?_ ?_
  · rintro m ⟨e, as', he⟩
    simp only [Except.ok.injEq, Prod.mk.injEq] at he
    exact a2 m e he.1
  · intro mo m hu hin hD
    obtain ⟨o', g1, g2, g3, g4⟩ := framed_op hu.1 hin o hr
    obtain rfl : o' = o := by
      rcases g1 with g1 | ⟨_, g1⟩
      · exact g1
      · exact absurd ⟨_, _, by rw [g1]⟩ hD
    exact ⟨g4, fun p hp => (spares_op hu.1 hI.len o' ho).2.2 p ((hI.shared p).mp hp)⟩

theorem gentle_cmd (hI : AmidInv S O k as μ μo) (dyn : Bool) (z : List Int) (hz : ∀ i ∈ z, i = 0) (c : Cmd V) (hr : ∀ p, c ≠ .op (.run p)) (hk : Spares k (.cmd c)) : Gentle S O μ (FCmd.stepA dyn z as (.cmd c)) := by
  have hH := held_sound hI.usable.1
  have hWA : ∀ p, StorageOf (as.drop k) p → StorageOf as p ∧ StorageOf (as.drop k) p := fun p hp => ⟨(storage_split as k p).mpr (.inr hp), hp⟩
  cases c with
  | op o => exact gentle_op hI o (fun p hp => hr p (by rw [hp])) hk
  | set i j x =>
    cases ha : as[i]? with
    | none =>
      simp only [FCmd.stepA, Cmd.stepA, ha]
      exact gentle_done
    | some a =>
      by_cases hj : j.length = a.dims.length
      · obtain ⟨s, hs1, hs2⟩ := heldAt_drop (k := k) (is := [i]) hI.usable.1 (fun i' hi => by rw [List.mem_singleton] at hi; subst hi; exact hk) i (by simp) a ha
        simp only [FCmd.stepA, Cmd.stepA, ha, if_pos hj]
        exact gentle_quiet hI (amid_elem hWA hs1 hs2 j hj x) _
      · simp only [FCmd.stepA, Cmd.stepA, ha, if_neg hj]
        exact gentle_done
  | assign i e =>
    exact gentle_quiet hI (amid_whole hH dyn z hz (amid_set hWA) i e (heldAt_drop hI.usable.1 (fun i' hi => by rw [List.mem_singleton] at hi; subst hi; exact hk))) _
  | update f i e =>
    exact gentle_quiet hI (amid_whole hH dyn z hz (amid_upd hWA f) i e (heldAt_drop hI.usable.1 (fun i' hi => by rw [List.mem_singleton] at hi; subst hi; exact hk))) _

theorem leads_one {α : Type} {y : Act V α} {hs : Steps V} {r : Except Fault α} (h : Leads (Amid.one y) hs (.done r)) : ∃ b, hs = [(b, (y b).2)] ∧ r = (y b).1 := by
  cases hs with
  | nil => cases h
  | cons e hs =>
    obtain ⟨b, a⟩ := e
    obtain ⟨f, k, he, rfl, hl⟩ := h
    cases he
    obtain ⟨rfl, hd⟩ := leads_done hl
    cases hd
    exact ⟨b, rfl, rfl⟩

theorem gentle_make (hI : AmidInv S O k as μ μo) (dyn : Bool) (z : List Int) (hz : ∀ i ∈ z, i = 0) (rk : Option Nat) (o : Option Int) (fill : Nat → V) (e : FExp V) (he : FExp.Safe as e) :
    Gentle S O μ (fmakeA dyn z as rk o fill e) := by
  unfold fmakeA
  have hl1 := amid_eager (held_sound hI.usable.1) dyn z hz e he (W := StorageOf (as.drop k))
  refine gentle_bind (gentle_local hI hl1.2) fun hs1 e' hl hq => ?_
  obtain ⟨hE, μo1, hI1⟩ := after_link hI hl1 hl hq
  obtain ⟨he', _⟩ : FExp.Safe as e' ∧ targets e' = targets e := by
    rcases hE with hE | hE | ⟨_, hE, h⟩
    · cases hE
    · cases hE
    · cases hE; exact h
  generalize Belongs O hs1 = O1 at *
  generalize memAfter μ hs1 = m1 at *
  clear hI hl hq hE hl1
  rcases linked_exp (linkedAmid (StorageOf as) (StorageOf (as.drop k))) (held_sound hI1.usable.1) (StorageOf as) e' he' (held_held (held_sound hI1.usable.1) _) with ⟨ht, _⟩ | ⟨ht, _⟩ | ⟨t, t', ht, ht', _⟩
  · rw [ht]; exact gentle_done
  · rw [ht]; exact gentle_done
  rw [ht]
  change Gentle S O1 m1 (Amid.one (Arr.create rk o fill t.shape) >>= _)
  obtain ⟨a1, a2⟩ := create_alike rk o fill t.shape
  refine gentle_bind (gentle_one fun μ1 h1 => node_one hI1 h1 (fun r => ∃ e, r = .error e) a1 (fun m ⟨e, h⟩ => a2 m e h) fun mo m hu hin hD => ?_) fun hs2 a hl2 hq2 => ?_
  · obtain ⟨o', g1, g2, g3⟩ := framed_create rk o fill t.shape hin
    obtain rfl : o' = o := by
      rcases g1 with g1 | ⟨_, g1⟩
      · exact g1
      · exact absurd ⟨_, g1⟩ hD
    refine ⟨g3, fun p hp => only_create rk o' fill t.shape mo p ?_⟩
    rw [hu.1.used p]
    obtain ⟨b, hb, hp⟩ := (hI1.shared p).mp hp
    exact .inr ⟨b, List.mem_of_mem_take hb, hp⟩
  · obtain ⟨b, rfl, hr⟩ := leads_one hl2
    have hin : Inn μo1 b := fun p hp => (hq2.1 p (hI1.mine p hp)).trans (hI1.inn p hp)
    obtain ⟨o', c1, c2, c3⟩ := framed_create rk o fill t.shape hin
    obtain rfl : o' = o := by
      rcases c1 with c1 | ⟨_, c4⟩
      · exact c1
      · rw [← hr] at c4
        cases c4
    have hone : ∀ p, S p → (Arr.create rk o' fill t.shape μo1).2 p = μo1 p := fun p hp =>
      only_create rk o' fill t.shape μo1 p ((inv_storage hI1 p).mpr ((storage_split as k p).mpr (.inl ((hI1.shared p).mp hp))))
    rcases hc : Arr.create rk o' fill t.shape μo1 with ⟨r, μ2⟩
    rw [hc] at c2 c3 hone
    rw [c2] at hr
    simp only at hr
    subst hr
    have hu := create_usable hI1.usable hc
    have hout : AmidOut S O1 k m1 (as ++ [a]) μ2 _ _ := inv_step hI1 hin c3 hone (as' := as ++ [a]) (by rw [List.take_append_of_le_length hI1.len]; exact hI1.shared) (by simp; have := hI1.len; omega)
    have hI2 := inv_of_out hout hu
    rw [hout.mem] at hI2
    have hk := hI1.len
    clear hI1 hl2 hq2 hout hin
    have hH2 := held_sound hu.1
    have hH3 : Held (StorageOf (as ++ [a])) as := held_mono hH2 (fun b hb => by simp [hb]) fun _ h => h
    have hw2 : Twin (linkedAmid (StorageOf (as ++ [a])) (StorageOf ((as ++ [a]).drop k))) (GoodLv (StorageOf (as ++ [a]))) t t' := by
      rcases linked_exp (linkedAmid (StorageOf (as ++ [a])) (StorageOf ((as ++ [a]).drop k))) hH3 (StorageOf (as ++ [a])) e' he' (held_held hH3 _) with ⟨g, _⟩ | ⟨g, _⟩ | ⟨u, u', g, g', g2⟩
      · rw [ht] at g; cases g
      · rw [ht] at g; cases g
      · rw [ht] at g
        rw [ht'] at g'
        cases g
        cases g'
        exact g2
    have hWA : ∀ p, StorageOf ((as ++ [a]).drop k) p → StorageOf (as ++ [a]) p ∧ StorageOf ((as ++ [a]).drop k) p := fun p hp => ⟨(storage_split (as ++ [a]) k p).mpr (.inr hp), hp⟩
    have hl := amid_traverse dyn z hz (amid_set hWA) (twin_array (heldAt_drop (k := k) (is := [as.length]) hu.1 (fun i hi => by rw [List.mem_singleton] at hi; rw [hi]; exact hk)) (a := a) (by simp)) hw2
    refine gentle_bind (gentle_outcome (gentle_local hI2 hl.2)) fun hs3 r hl3 hq3 => ?_
    cases r with
    | ok u => exact gentle_done
    | error f =>
      obtain ⟨y', hl4, hy⟩ := leads_outcome _ hs3 _ hl3
      obtain rfl : y' = .done (.error f) := by
        cases y' with
        | done r => simp only [Amid.outcome, Amid.done.injEq, Except.ok.injEq] at hy; rw [hy]
        | step g k => cases hy
      obtain ⟨_, μo3, hI3⟩ := after_link hI2 hl hl4 hq3
      have hS : ∀ p, S p → ¬ Owns a p := fun p hp ho => storage_apart hI3.usable.1 p ((hI3.shared p).mp hp) ⟨a, by
        rw [List.drop_append_of_le_length hk]; simp, ho⟩
      refine gentle_bind (gentle_one fun μ1 h1 => node_one hI3 h1 (y := fun μ => ((.ok () : Except Fault Unit), μ.move a a.base 0 fun _ => none)) (fun _ => False) (fun _ _ _ => rfl) (fun _ h => h.elim) fun mo m hu hin _ => ⟨?_, fun p hp => ?_⟩) fun _ _ _ _ => gentle_done
      · exact framed_move hin (fun p hp => (hu.1.used p).mpr (.inr ⟨a, by simp, hp⟩)) (b := a.base) (n := 0) (fill := fun _ => none) (fun p hp => by omega) (fun hn => by omega)
      · have := hS p hp
        simp only [Owns] at this
        simp only [Mem.move]
        rw [if_neg (by omega), if_neg this]

theorem gentle_step (hI : AmidInv S O k as μ μo) (dyn : Bool) (z : List Int) (hz : ∀ i ∈ z, i = 0) (c : FCmd V) (hr : ∀ p, c ≠ .cmd (.op (.run p))) (hg : FCmd.Safe as c) (hk : Spares k c) : Gentle S O μ (c.stepA dyn z as) := by
  have hH := held_sound hI.usable.1
  have hWA : ∀ p, StorageOf (as.drop k) p → StorageOf as p ∧ StorageOf (as.drop k) p := fun p hp => ⟨(storage_split as k p).mpr (.inr hp), hp⟩
  cases c with
  | cmd c => exact gentle_cmd hI dyn z hz c (fun p hp => hr p (by rw [hp])) hk
  | assign d e => exact gentle_quiet hI (amid_assign hH dyn z hz (amid_set hWA) d e hg.1 hg.2 (heldAt_drop hI.usable.1 hk)) _
  | update f d e => exact gentle_quiet hI (amid_assign hH dyn z hz (amid_upd hWA f) d e hg.1 hg.2 (heldAt_drop hI.usable.1 hk)) _
  | make rk o fill e => exact gentle_bind (gentle_outcome (gentle_make hI dyn z hz rk o fill e hg)) fun _ _ _ _ => gentle_done

theorem gentle_program (dyn : Bool) (z : List Int) (hz : ∀ i ∈ z, i = 0) (cs : List (FCmd V)) (hr : ∀ p, FCmd.cmd (.op (.run p)) ∉ cs) (hk : ∀ c ∈ cs, Spares k c) (hI : AmidInv S O k as μ μo) (hg : FSafes dyn z cs as μo) :
    Gentle S O μ (fprogramA dyn z cs as) := by
  induction cs generalizing as μ μo O with
  | nil => exact gentle_done
  | cons c cs ih =>
    simp only [fprogramA]
    have hr0 : ∀ p, c ≠ .cmd (.op (.run p)) := fun p hp => hr p (by simp [hp])
    refine gentle_bind (gentle_step hI dyn z hz c hr0 hg.1 (hk c (by simp))) fun hs q hl hq => ?_
    have hrun := (leads_run _ _ [] hs μ hl).2 _ rfl
    rcases follows_step hI dyn z hz c hr0 hg.1 (hk c (by simp)) (others := othersOf ([] ++ hs)) (h := []) with h1 | ⟨r, as1, c', μ1, h1, h2, h3, h4⟩
    · rw [hrun] at h1
      exact absurd h1 (quiet_untroubled hq)
    · rw [hrun] at h1 h4
      simp only [Except.ok.injEq] at h1
      subst h1
      cases r with
      | error e => exact gentle_done
      | ok u =>
        obtain rfl : c' = c := by
          rcases h2 with h2 | ⟨_, h2⟩
          · exact h2
          · cases h2
        rcases fstep_usable hI.usable dyn z hz c' hr0 hg.1 h3 with ⟨_, hu⟩ | ⟨hu, _⟩
        · exact ih (fun p hp => hr p (by simp [hp])) (fun c hc => hk c (by simp [hc])) (inv_of_out h4 hu) (hg.2 _ _ h3)
        · simp at hu

variable {μ00 μ0 : Mem V} {shared : List Arr} {ts : List (Thread V)}

theorem quiet_of_alone {S O : Int → Prop} {μ : Mem V} {hs : Steps V} (h : ∀ h1 e h2, hs = h1 ++ e :: h2 → ∀ p, S p ∨ Belongs O h1 p → e.1 p = memAfter μ h1 p) : Quietly S O μ hs := by
  induction hs generalizing O μ with
  | nil => trivial
  | cons e hs ih => exact ⟨h [] e hs rfl, ih fun h1 e' h2 he p hp => h (e :: h1) e' h2 (by rw [he]; rfl) p hp⟩

/-- C104. Whatever the order of the steps, there's no data race: what a thread is about to write (or free) isn't what another is about to read or write. -/
theorem C104_races {dyn : Bool} {z : List Int} (hz : ∀ i ∈ z, i = 0) {cs0 : List (FCmd V)} (hr : ∀ p, FCmd.cmd (.op (.run p)) ∉ cs0) (hs : FSafes dyn z cs0 [] μ00)
    (hm : fprogram dyn z cs0 [] μ00 = (.ok (), shared ++ (ts.map Thread.own).flatten, μ0)) (hp : ∀ t ∈ ts, t.Polite shared μ0) (l : List Nat) :
    ¬ Race (Crowd.exec (ts.map fun t => t.todo shared, μ0) l) := by
  have h : Usable μ00 (shared ++ (ts.map Thread.own).flatten) μ0 := by
    rcases fprogram_usable dyn z hz cs0 hr (usable_start μ00) hs hm with ⟨_, h⟩ | ⟨h, _⟩
    · exact h
    · simp at h
  have hO := threads_orderly h hp l _ [] (List.append_nil _).symm
  have hmem := (trace_mem (crowdOf shared ts μ0) l).2
  change (Crowd.exec (crowdOf shared ts μ0) l).2 = memAfter μ0 _ at hmem
  have key : ∀ (i : Nat) x, (Crowd.exec (crowdOf shared ts μ0) l).1[i]? = some x → NodeOk (StorageOf shared) (Belongs (ownAt ts i) (stepsOf i (trace (crowdOf shared ts μ0) l))) x (Crowd.exec (crowdOf shared ts μ0) l).2 := by
    intro i x hx
    have hlen : ∀ (t : Crowd V (Except Fault Unit × List Arr)) (l : List Nat), (t.exec l).1.length = t.1.length := by
      intro t l
      induction l generalizing t with
      | nil => rfl
      | cons j l ih =>
        have h1 : t.exec (j :: l) = (t.step j).exec l := rfl
        rw [h1, ih]
        unfold Crowd.step
        split <;> simp
    have hi := (List.getElem?_eq_some_iff.mp hx).1
    rw [hlen] at hi
    simp only [crowdOf, List.length_map] at hi
    obtain ⟨y, hy, hl⟩ := trace_leads (crowdOf shared ts μ0) l (i := i) (x := ts[i].todo shared) (by simp [crowdOf, hi])
    rw [hx] at hy
    cases hy
    have hpt := hp ts[i] (by simp)
    obtain ⟨μa, hj⟩ := just_exists (shared ++ ts[i].own) μ0
    refine gentle_program ts[i].dyn ts[i].z hpt.start ts[i].cs hpt.sane hpt.spares (inv_start h (i := i) (by simp [hi]) hj) (hpt.safe μa hj) _ x hl (quiet_of_alone (hO.alone i)) _ fun p hp => ?_
    rw [hmem]
    exact hO.agree i p hp
  rintro ⟨i, j, x, y, p, hij, hx, hy, hp, hw, hrw⟩
  have hi := (key i x hx p hp).1 hw
  rcases hrw with hrw | hrw
  · rcases (key j y hy p hp).2 hrw with h1 | h1
    · exact hO.off i p hi h1
    · exact hO.apart i j p hij hi h1
  · exact hO.apart i j p hij hi ((key j y hy p hp).1 hrw)

end
end Ra.Props

namespace Ra.Props
open Spec

/-! To read an element is to read, and to write it is to write, as far as `ReadsAt` and `WritesAt` go. -/

theorem sameAlloc_upd {V : Type} {μ : Mem V} {p : Int} (h : (μ p).isSome) (v : V) : SameAlloc μ (μ.upd p v) := fun q => by
  simp only [Mem.upd]
  split
  · simp_all
  · rfl

theorem C104_reads {V : Type} [Nontrivial V] {μ : Mem V} {p : Int} (h : (μ p).isSome) : ReadsAt (Amid.one (Act.read p)) μ p ∧ ∀ q, ¬ WritesAt (Amid.one (Act.read p)) μ q := by
  obtain ⟨v, w, hvw⟩ := exists_pair_ne V
  refine ⟨⟨μ.upd p v, μ.upd p w, sameAlloc_upd h v, sameAlloc_upd h w, fun q hq => by simp [Mem.upd, hq], .inl ?_⟩, ?_⟩
  · simp [Amid.one, Amid.next, Act.read, Mem.upd, hvw]
  · rintro q ⟨μ', _, hq⟩
    apply hq
    simp only [Amid.one, Amid.next, Act.read]
    split <;> rfl

theorem C104_writes {V : Type} [Nontrivial V] {μ : Mem V} {p : Int} (h : (μ p).isSome) (v : V) : ∀ q, WritesAt (Amid.one (Act.write p v)) μ q ↔ q = p := by
  obtain ⟨w, hw⟩ := exists_ne v
  refine fun q => ⟨?_, ?_⟩
  · rintro ⟨μ', _, hq⟩
    by_contra hn
    apply hq
    simp only [Amid.one, Amid.next, Act.write]
    split
    · simp [Mem.upd, hn]
    · rfl
  · rintro rfl
    refine ⟨μ.upd q w, sameAlloc_upd h w, ?_⟩
    simp [Amid.one, Amid.next, Act.write, Mem.upd, hw.symm]

/-- The threads of the example have no race. -/
example (l : List Nat) : ¬ Race (Crowd.exec ([egThread1, egThread2].map fun t => t.todo egThreadsShared, (fprogram true [] egThreads0 [] noMem).2.2) l) :=
  C104_races (dyn := true) (z := []) (cs0 := egThreads0) (μ00 := noMem) (by simp) (by simp [egThreads0]) (fsafes_any _ _ _ (by simp [egThreads0, FCmd.Safe]) _ _) rfl egThreads_polite l

/-- Two threads that do `b += 1` with the same array do. -/
example : Race (Crowd.exec ([egThread3, egThread3].map fun t => t.todo egThreadsShared, (fprogram true [] egThreads0 [] noMem).2.2) [0, 1, 0, 1]) :=
  ⟨0, 1, _, _, 20, by decide, rfl, rfl, by decide +kernel, ⟨_, fun _ => rfl, by decide +kernel⟩, .inr ⟨_, fun _ => rfl, by decide +kernel⟩⟩

end Ra.Props
