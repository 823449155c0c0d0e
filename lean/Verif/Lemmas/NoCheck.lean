import Mathlib.Data.List.Forall2
import Verif.Model.NoCheck
/-!
# A program and the same program without checks

`SimM.rel R x y` says that `y` does as `x` does, with results that are in relation `R`, unless a check fails in `x`.
-/

namespace Ra.Props

/-- Actions that can be compared. -/
class SimM (m : Type → Type) [Monad m] [MonadFault m] where
  rel : {α β : Type} → (α → β → Prop) → m α → m β → Prop
  rpure : ∀ {α β : Type} {R : α → β → Prop} {a : α} {b : β}, R a b → rel R (pure a) (pure b)
  rbind : ∀ {α β γ δ : Type} {R : α → β → Prop} {S : γ → δ → Prop} {x : m α} {y : m β} {f : α → m γ} {g : β → m δ},
    rel R x y → (∀ a b, R a b → rel S (f a) (g b)) → rel S (x >>= f) (y >>= g)
  rcheck : ∀ {α β : Type} {R : α → β → Prop} {y : m β}, rel R (fault .check : m α) y
  rfault : ∀ {α β : Type} {R : α → β → Prop} {e : Fault}, rel R (fault e : m α) (fault e : m β)
  rrefl : ∀ {α : Type} {R : α → α → Prop} {x : m α}, (∀ a, R a a) → rel R x x

open SimM

/-- The relation for results without effects. -/
def ExRel {α β : Type} (R : α → β → Prop) : Except Fault α → Except Fault β → Prop
  | .ok a, y => ∃ b, y = .ok b ∧ R a b
  | .error e, y => e = .check ∨ y = .error e

instance : SimM (Except Fault) where
  rel := ExRel
  rpure h := ⟨_, rfl, h⟩
  rbind := by
    intro α β γ δ R S x y f g h hf
    rcases x with e | a
    · rcases h with rfl | rfl
      · exact .inl rfl
      · exact .inr rfl
    · obtain ⟨b, rfl, hab⟩ := h
      exact hf a b hab
  rcheck := .inl rfl
  rfault := .inr rfl
  rrefl := by
    intro α R x hr
    rcases x with e | a
    · exact .inr rfl
    · exact ⟨a, rfl, hr a⟩

/-- The relation for actions on memory. -/
def ActRel {V α β : Type} (R : α → β → Prop) (x : Act V α) (y : Act V β) : Prop :=
  ∀ μ, match x μ with
    | (.ok a, μ') => ∃ b, y μ = (.ok b, μ') ∧ R a b
    | (.error e, μ') => e = .check ∨ y μ = (.error e, μ')

instance {V : Type} : SimM (Act V) where
  rel := ActRel
  rpure h := fun _ => ⟨_, rfl, h⟩
  rbind := by
    intro α β γ δ R S x y f g h hf μ
    have h := h μ
    simp only [bind, Act.andThen]
    rcases hx : x μ with ⟨e | a, μ'⟩ <;> rw [hx] at h
    · rcases h with h | h
      · exact .inl h
      · rw [h]
        exact .inr rfl
    · obtain ⟨b, hy, hab⟩ := h
      rw [hy]
      exact hf a b hab μ'
  rcheck := fun _ => .inl rfl
  rfault := fun _ => .inr rfl
  rrefl := by
    intro α R x hr μ
    rcases hx : x μ with ⟨e | a, μ'⟩
    · exact .inr rfl
    · exact ⟨a, rfl, hr a⟩

instance {σ : Type} {n : Type → Type} [Monad n] [MonadFault n] [SimM n] : SimM (StateT σ n) where
  rel R x y := ∀ s, rel (fun (p : _ × σ) (q : _ × σ) => R p.1 q.1 ∧ p.2 = q.2) (x s) (y s)
  rpure h := fun _ => rpure ⟨h, rfl⟩
  rbind := by
    intro α β γ δ R S x y f g h hf s
    refine rbind (h s) ?_
    rintro ⟨a, s'⟩ ⟨b, s''⟩ ⟨hab, hs⟩
    simp only at hs hab
    subst hs
    exact hf a b hab s'
  rcheck := fun _ => rcheck
  rfault := fun _ => rfault
  rrefl hr := fun _ => rrefl fun _ => ⟨hr _, rfl⟩

section
variable {m : Type → Type} {α β γ : Type} [Monad m] [MonadFault m] [SimM m]

/-- Actions with the same results. -/
def Sim (x y : m α) : Prop := rel Eq x y

/-- Operations that give actions with the same results, from arguments that do. -/
def SimOp (f g : List (m α) → m α) : Prop := ∀ xs ys, List.Forall₂ Sim xs ys → Sim (f xs) (g ys)

mutual
/-- Iterators that differ only in the actions. -/
def SimI : Iter m α → Iter m α → Prop
  | .scalar c, b => ∃ c', b = .scalar c' ∧ Sim c c'
  | .cell dims cp rd, b => ∃ rd', b = .cell dims cp rd' ∧ ∀ p, Sim (rd p) (rd' p)
  | .reframe dest a, b => ∃ a', b = .reframe dest a' ∧ SimI a a'
  | .node op t, b => ∃ op' t', b = .node op' t' ∧ SimOp op op' ∧ SimIs t t'
/-- The same for lists. -/
def SimIs : List (Iter m α) → List (Iter m α) → Prop
  | [], t => t = []
  | a :: t, u => ∃ a' t', u = a' :: t' ∧ SimI a a' ∧ SimIs t t'
end

mutual
theorem simI_rank : ∀ {a b : Iter m α}, SimI a b → b.rank = a.rank
  | .scalar _, _, h => by obtain ⟨_, rfl, _⟩ := h; simp only [Iter.rank]
  | .cell _ _ _, _, h => by obtain ⟨_, rfl, _⟩ := h; simp only [Iter.rank]
  | .reframe _ _, _, h => by obtain ⟨_, rfl, _⟩ := h; simp only [Iter.rank]
  | .node _ _, _, h => by obtain ⟨_, _, rfl, _, h⟩ := h; simp only [Iter.rank, simIs_rank h]
theorem simIs_rank : ∀ {t u : List (Iter m α)}, SimIs t u → rankList u = rankList t
  | [], _, h => by rw [show _ = [] from h]
  | _ :: _, _, h => by obtain ⟨_, _, rfl, h, h'⟩ := h; simp only [rankList, simI_rank h, simIs_rank h']
end

mutual
theorem simI_len : ∀ {a b : Iter m α}, SimI a b → ∀ k, b.len k = a.len k
  | .scalar _, _, h, k => by obtain ⟨_, rfl, _⟩ := h; simp only [Iter.len]
  | .cell _ _ _, _, h, k => by obtain ⟨_, rfl, _⟩ := h; simp only [Iter.len]
  | .reframe dest _, _, h, k => by
    obtain ⟨_, rfl, h⟩ := h
    simp only [Iter.len]
    split
    · exact simI_len h _
    · rfl
  | .node _ _, _, h, k => by obtain ⟨_, _, rfl, _, h⟩ := h; simp only [Iter.len, simIs_len h k]
theorem simIs_len : ∀ {t u : List (Iter m α)}, SimIs t u → ∀ k, lenList u k = lenList t k
  | [], _, h, k => by rw [show _ = [] from h]
  | _ :: _, _, h, k => by obtain ⟨_, _, rfl, h, h'⟩ := h; simp only [lenList, simI_rank h, simI_len h k, simIs_len h' k]
end

mutual
theorem simI_step : ∀ {a b : Iter m α}, SimI a b → ∀ k, b.step k = a.step k
  | .scalar _, _, h, k => by obtain ⟨_, rfl, _⟩ := h; simp only [Iter.step]
  | .cell _ _ _, _, h, k => by obtain ⟨_, rfl, _⟩ := h; simp only [Iter.step]
  | .reframe dest _, _, h, k => by
    obtain ⟨_, rfl, h⟩ := h
    simp only [Iter.step]
    split
    · exact simI_step h _
    · rw [simI_step h]
  | .node _ _, _, h, k => by obtain ⟨_, _, rfl, _, h⟩ := h; simp only [Iter.step, simIs_step h k]
theorem simIs_step : ∀ {t u : List (Iter m α)}, SimIs t u → ∀ k, stepList u k = stepList t k
  | [], _, h, k => by rw [show _ = [] from h]
  | _ :: _, _, h, k => by obtain ⟨_, _, rfl, h, h'⟩ := h; simp only [stepList, simI_step h k, simIs_step h' k]
end

mutual
theorem simI_keep : ∀ {a b : Iter m α}, SimI a b → ∀ st z j, b.keep st z j = a.keep st z j
  | .scalar _, _, h, _, _, _ => by obtain ⟨_, rfl, _⟩ := h; simp only [Iter.keep]
  | .cell _ _ _, _, h, _, _, _ => by obtain ⟨_, rfl, _⟩ := h; simp only [Iter.keep]
  | .reframe dest _, _, h, st, z, j => by
    obtain ⟨_, rfl, h⟩ := h
    simp only [Iter.keep]
    split
    · exact simI_keep h _ _ _
    · rfl
  | .node _ _, _, h, st, z, j => by obtain ⟨_, _, rfl, _, h⟩ := h; simp only [Iter.keep, simIs_keep h st z j]
theorem simIs_keep : ∀ {t u : List (Iter m α)}, SimIs t u → ∀ st z j, keepList u st z j = keepList t st z j
  | [], _, h, _, _, _ => by rw [show _ = [] from h]
  | _ :: _, _, h, st, z, j => by obtain ⟨_, _, rfl, h, h'⟩ := h; simp only [keepList, simI_keep h st z j, simIs_keep h' st z j]
end

mutual
theorem simI_save : ∀ {a b : Iter m α}, SimI a b → b.save = a.save
  | .scalar _, _, h => by obtain ⟨_, rfl, _⟩ := h; simp only [Iter.save]
  | .cell _ _ _, _, h => by obtain ⟨_, rfl, _⟩ := h; simp only [Iter.save]
  | .reframe _ _, _, h => by obtain ⟨_, rfl, h⟩ := h; simp only [Iter.save, simI_save h]
  | .node _ _, _, h => by obtain ⟨_, _, rfl, _, h⟩ := h; simp only [Iter.save, simIs_save h]
theorem simIs_save : ∀ {t u : List (Iter m α)}, SimIs t u → saveList u = saveList t
  | [], _, h => by rw [show _ = [] from h]
  | _ :: _, _, h => by obtain ⟨_, _, rfl, h, h'⟩ := h; simp only [saveList, simI_save h, simIs_save h']
end

mutual
theorem simI_adv : ∀ {a b : Iter m α}, SimI a b → ∀ k d, SimI (a.adv k d) (b.adv k d)
  | .scalar _, _, h, k, d => by obtain ⟨_, rfl, h⟩ := h; simp only [Iter.adv]; exact ⟨_, rfl, h⟩
  | .cell _ _ _, _, h, k, d => by obtain ⟨_, rfl, h⟩ := h; simp only [Iter.adv]; exact ⟨_, rfl, h⟩
  | .reframe dest _, _, h, k, d => by
    obtain ⟨_, rfl, h⟩ := h
    simp only [Iter.adv]
    split
    · exact ⟨_, rfl, simI_adv h _ _⟩
    · exact ⟨_, rfl, h⟩
  | .node _ _, _, h, k, d => by obtain ⟨_, _, rfl, ho, h⟩ := h; simp only [Iter.adv]; exact ⟨_, _, rfl, ho, simIs_adv h k d⟩
theorem simIs_adv : ∀ {t u : List (Iter m α)}, SimIs t u → ∀ k d, SimIs (advList t k d) (advList u k d)
  | [], _, h, k, d => by rw [show _ = [] from h]; exact rfl
  | _ :: _, _, h, k, d => by obtain ⟨_, _, rfl, h, h'⟩ := h; exact ⟨_, _, rfl, simI_adv h k d, simIs_adv h' k d⟩
end

mutual
theorem simI_mov : ∀ {a b : Iter m α}, SimI a b → ∀ s, SimI (a.mov s) (b.mov s)
  | .scalar _, _, h, s => by obtain ⟨_, rfl, h⟩ := h; simp only [Iter.mov]; exact ⟨_, rfl, h⟩
  | .cell _ _ _, _, h, .leaf _ => by obtain ⟨_, rfl, h⟩ := h; simp only [Iter.mov]; exact ⟨_, rfl, h⟩
  | .cell _ _ _, _, h, .node _ => by obtain ⟨_, rfl, h⟩ := h; simp only [Iter.mov]; exact ⟨_, rfl, h⟩
  | .reframe dest _, _, h, s => by obtain ⟨_, rfl, h⟩ := h; simp only [Iter.mov]; exact ⟨_, rfl, simI_mov h s⟩
  | .node _ _, _, h, .leaf _ => by obtain ⟨_, _, rfl, h⟩ := h; simp only [Iter.mov]; exact ⟨_, _, rfl, h⟩
  | .node _ _, _, h, .node s => by obtain ⟨_, _, rfl, ho, h⟩ := h; simp only [Iter.mov]; exact ⟨_, _, rfl, ho, simIs_mov h s⟩
theorem simIs_mov : ∀ {t u : List (Iter m α)}, SimIs t u → ∀ s, SimIs (movList t s) (movList u s)
  | [], _, h, s => by rw [show _ = [] from h]; cases s <;> exact rfl
  | _ :: _, _, h, [] => by obtain ⟨_, _, rfl, h⟩ := h; exact ⟨_, _, rfl, h⟩
  | _ :: _, _, h, _ :: s => by obtain ⟨_, _, rfl, h, h'⟩ := h; exact ⟨_, _, rfl, simI_mov h _, simIs_mov h' s⟩
end

mutual
theorem simI_load : ∀ {a b : Iter m α}, SimI a b → ∀ s, SimI (a.load s) (b.load s)
  | .scalar _, _, h, s => by obtain ⟨_, rfl, h⟩ := h; simp only [Iter.load]; exact ⟨_, rfl, h⟩
  | .cell _ _ _, _, h, .leaf _ => by obtain ⟨_, rfl, h⟩ := h; simp only [Iter.load]; exact ⟨_, rfl, h⟩
  | .cell _ _ _, _, h, .node _ => by obtain ⟨_, rfl, h⟩ := h; simp only [Iter.load]; exact ⟨_, rfl, h⟩
  | .reframe dest _, _, h, s => by obtain ⟨_, rfl, h⟩ := h; simp only [Iter.load]; exact ⟨_, rfl, simI_load h s⟩
  | .node _ _, _, h, .leaf _ => by obtain ⟨_, _, rfl, h⟩ := h; simp only [Iter.load]; exact ⟨_, _, rfl, h⟩
  | .node _ _, _, h, .node s => by obtain ⟨_, _, rfl, ho, h⟩ := h; simp only [Iter.load]; exact ⟨_, _, rfl, ho, simIs_load h s⟩
theorem simIs_load : ∀ {t u : List (Iter m α)}, SimIs t u → ∀ s, SimIs (loadList t s) (loadList u s)
  | [], _, h, s => by rw [show _ = [] from h]; cases s <;> exact rfl
  | _ :: _, _, h, [] => by obtain ⟨_, _, rfl, h⟩ := h; exact ⟨_, _, rfl, h⟩
  | _ :: _, _, h, _ :: s => by obtain ⟨_, _, rfl, h, h'⟩ := h; exact ⟨_, _, rfl, simI_load h _, simIs_load h' s⟩
end

mutual
theorem simI_deref : ∀ {a b : Iter m α}, SimI a b → Sim a.deref b.deref
  | .scalar _, _, h => by obtain ⟨_, rfl, h⟩ := h; simp only [Iter.deref]; exact h
  | .cell _ _ _, _, h => by obtain ⟨_, rfl, h⟩ := h; simp only [Iter.deref]; exact h _
  | .reframe _ _, _, h => by obtain ⟨_, rfl, h⟩ := h; simp only [Iter.deref]; exact simI_deref h
  | .node _ _, _, h => by obtain ⟨_, _, rfl, ho, h⟩ := h; simp only [Iter.deref]; exact ho _ _ (simIs_deref h)
theorem simIs_deref : ∀ {t u : List (Iter m α)}, SimIs t u → List.Forall₂ Sim (derefList t) (derefList u)
  | [], _, h => by rw [show _ = [] from h]; exact .nil
  | _ :: _, _, h => by obtain ⟨_, _, rfl, h, h'⟩ := h; exact .cons (simI_deref h) (simIs_deref h')
end

/-! Traversal. -/

theorem sim_inner {stop : α → Option β} {ss0 : Tree} : ∀ (n : Nat) {a b : Iter m α}, SimI a b →
    rel (fun p q => p.1 = q.1 ∧ SimI p.2 q.2) (inner stop ss0 n a) (inner stop ss0 n b)
  | 0, _, _, h => rpure ⟨rfl, h⟩
  | n+1, a, b, h => by
    refine rbind (simI_deref h) ?_
    rintro x _ rfl
    split
    · exact rpure ⟨rfl, h⟩
    · exact sim_inner n (simI_mov h ss0)

theorem sim_carry : ∀ (axes : List (Nat × Int)) (z : List Int) {a b : Iter m α}, SimI a b →
    (carry axes z a).1 = (carry axes z b).1 ∧ (carry axes z a).2.1 = (carry axes z b).2.1 ∧ SimI (carry axes z a).2.2 (carry axes z b).2.2
  | [], _, _, _, h => ⟨rfl, rfl, h⟩
  | _ :: _, [], _, _, h => ⟨rfl, rfl, h⟩
  | (o, sha) :: axes, i :: z, _, _, h => by
    simp only [carry]
    split
    · exact ⟨rfl, rfl, simI_adv h o 1⟩
    · obtain ⟨h1, h2, h3⟩ := sim_carry axes z (simI_adv h o (1 - sha))
      exact ⟨h1, by simp only [h2], h3⟩

theorem sim_ravelLoop {stop : α → Option β} {ss : Int} {ss0 : Tree} {axes : List (Nat × Int)} : ∀ (n : Nat) (z : List Int) {a b : Iter m α}, SimI a b →
    rel (fun p q => p.1 = q.1 ∧ p.2.1 = q.2.1 ∧ SimI p.2.2 q.2.2) (ravelLoop stop ss ss0 axes n z a) (ravelLoop stop ss ss0 axes n z b)
  | 0, _, _, _, _ => rfault
  | n+1, z, a, b, h => by
    refine rbind (sim_inner ss.toNat h) ?_
    rintro ⟨r, a'⟩ ⟨_, b'⟩ ⟨rfl, h'⟩
    cases r with
    | some x => exact rpure ⟨rfl, rfl, h'⟩
    | none =>
      simp only
      rw [simI_save h]
      obtain ⟨h1, h2, h3⟩ := sim_carry axes z (simI_load h' a.save)
      rw [← h1, ← h2]
      split
      · exact rpure ⟨rfl, rfl, h3⟩
      · exact sim_ravelLoop n _ h3

theorem sim_compact {a b : Iter m α} (h : SimI a b) (z0 : Nat) : ∀ (n : Nat) (ss : Int), compact b z0 n ss = compact a z0 n ss
  | 0, _ => rfl
  | n+1, ss => by simp only [compact, simI_keep h, simI_len h, sim_compact h z0 n]

theorem sim_subplyLoop {f g : Iter m α → m (Option β × Iter m α)} (o : Nat)
    (hf : ∀ {a b}, SimI a b → rel (fun p q => p.1 = q.1 ∧ SimI p.2 q.2) (f a) (g b)) : ∀ (n : Nat) {a b : Iter m α}, SimI a b →
    rel (fun p q => p.1 = q.1 ∧ SimI p.2 q.2) (subplyLoop f o n a) (subplyLoop g o n b)
  | 0, _, _, h => rpure ⟨rfl, h⟩
  | n+1, _, _, h => by
    refine rbind (hf h) ?_
    rintro ⟨r, a'⟩ ⟨_, b'⟩ ⟨rfl, h'⟩
    cases r with
    | some x => exact rpure ⟨rfl, h'⟩
    | none => exact sim_subplyLoop o hf n (simI_adv h' o 1)

theorem sim_subply {stop : α → Option β} {rank : Nat} {s : Int} {ss0 : Tree} : ∀ (k : Nat) {a b : Iter m α}, SimI a b →
    rel (fun p q => p.1 = q.1 ∧ SimI p.2 q.2) (subply stop rank s ss0 k a) (subply stop rank s ss0 k b)
  | 0, a, b, h => by
    refine rbind (sim_inner s.toNat h) ?_
    rintro ⟨r, a'⟩ ⟨_, b'⟩ ⟨rfl, h'⟩
    cases r with
    | some x => exact rpure ⟨rfl, h'⟩
    | none =>
      simp only [simI_save h]
      exact rpure ⟨rfl, simI_load h' _⟩
  | k+1, a, b, h => by
    simp only [subply, simI_len h]
    refine rbind (sim_subplyLoop _ (sim_subply k) _ h) ?_
    rintro ⟨r, a'⟩ ⟨_, b'⟩ ⟨rfl, h'⟩
    cases r with
    | some x => exact rpure ⟨rfl, h'⟩
    | none => exact rpure ⟨rfl, simI_adv h' _ _⟩

theorem sim_plyRavel {stop : α → Option β} {z : List Int} {a b : Iter m α} (h : SimI a b) :
    rel (fun p q => p.1 = q.1 ∧ p.2.1 = q.2.1 ∧ SimI p.2.2 q.2.2) (plyRavel stop z a) (NoCheck.plyRavel stop z b) := by
  unfold plyRavel NoCheck.plyRavel
  rw [simI_rank h]
  split
  · split
    · rename_i hr
      simp only [hr]
      refine rbind (simI_deref h) ?_
      rintro x _ rfl
      exact rpure ⟨rfl, rfl, h⟩
    · rename_i r hr
      simp only [hr, sim_compact h, simI_len h, simI_step h]
      split
      · exact rpure ⟨rfl, rfl, h⟩
      · exact sim_ravelLoop _ _ h
  · exact rcheck

theorem sim_plyFixed {stop : α → Option β} {a b : Iter m α} (h : SimI a b) :
    rel (fun p q => p.1 = q.1 ∧ SimI p.2 q.2) (plyFixed stop a) (NoCheck.plyFixed stop b) := by
  unfold plyFixed NoCheck.plyFixed
  rw [simI_rank h]
  split
  · split
    · rename_i hr
      simp only [hr]
      refine rbind (simI_deref h) ?_
      rintro x _ rfl
      exact rpure ⟨rfl, h⟩
    · rename_i r hr
      simp only [hr, simI_len h, simI_step h]
      exact sim_subply _ h
  · exact rcheck

theorem sim_ply {dyn : Bool} {stop : α → Option β} {z : List Int} {a b : Iter m α} (h : SimI a b) : Sim (ply dyn stop z a) (NoCheck.ply dyn stop z b) := by
  unfold ply NoCheck.ply
  split
  · refine rbind (sim_plyRavel h) ?_
    rintro ⟨r, _⟩ ⟨_, _⟩ ⟨rfl, _⟩
    exact rpure rfl
  · refine rbind (sim_plyFixed h) ?_
    rintro ⟨r, _⟩ ⟨_, _⟩ ⟨rfl, _⟩
    exact rpure rfl

/-! Nodes. -/

theorem sim_mapM_id [LawfulMonad m] : ∀ {xs ys : List (m α)}, List.Forall₂ Sim xs ys → Sim (xs.mapM id) (ys.mapM id)
  | _, _, .nil => by
    simp only [List.mapM_nil]
    exact rpure rfl
  | _, _, .cons h t => by
    simp only [List.mapM_cons, id]
    refine rbind h ?_
    rintro x _ rfl
    refine rbind (sim_mapM_id t) ?_
    rintro xs _ rfl
    exact rpure rfl

theorem simOp_mapOp [LawfulMonad m] {f g : List α → m α} (h : ∀ vs, Sim (f vs) (g vs)) : SimOp (mapOp f) (mapOp g) := by
  intro xs ys hx
  refine rbind (sim_mapM_id hx) ?_
  rintro vs _ rfl
  exact h vs

theorem sim_pickStar (p0 : Nat) : ∀ {xs ys : List (m α)} (I : Nat), List.Forall₂ Sim xs ys → Sim (pickStar I p0 xs) (NoCheck.pickStar I p0 ys)
  | _, _, _, .nil => rcheck
  | _, _, I, .cons h t => by
    simp only [pickStar, NoCheck.pickStar]
    split
    · exact h
    · exact sim_pickStar p0 (I+1) t

theorem simIs_zipWith {d : List (List Nat)} : ∀ {t u : List (Iter m α)}, SimIs t u → SimIs (List.zipWith reframe d t) (List.zipWith reframe d u) := by
  induction d with
  | nil => intro t u _; exact rfl
  | cons x d ih =>
    intro t u h
    cases t with
    | nil => rw [show u = [] from h]; exact rfl
    | cons a t =>
      obtain ⟨a', t', rfl, h, h'⟩ := h
      refine ⟨_, _, rfl, ?_, ih h'⟩
      unfold reframe
      split
      · exact h
      · exact ⟨_, rfl, h⟩

theorem simIs_ranks : ∀ {t u : List (Iter m α)}, SimIs t u → u.map (fun a => (a.rank.toNat, ([] : List Nat))) = t.map (fun a => (a.rank.toNat, ([] : List Nat)))
  | [], _, h => by rw [show _ = [] from h]
  | _ :: _, _, h => by obtain ⟨_, _, rfl, h, h'⟩ := h; simp only [List.map_cons, simI_rank h, simIs_ranks h']

theorem simIs_ranks' : ∀ {t u : List (Iter m α)}, SimIs t u → u.map (fun a => a.rank.toNat) = t.map (fun a => a.rank.toNat)
  | [], _, h => by rw [show _ = [] from h]
  | _ :: _, _, h => by obtain ⟨_, _, rfl, h, h'⟩ := h; simp only [List.map_cons, simI_rank h, simIs_ranks' h']

/-- Two results that may not be there. -/
def SimO : Option (Iter m α) → Option (Iter m α) → Prop
  | none, y => y = none
  | some a, y => ∃ b, y = some b ∧ SimI a b

theorem sim_mapVerb [LawfulMonad m] {f g : List α → m α} (h : ∀ vs, Sim (f vs) (g vs)) {cranks : List (List Nat)} {t u : List (Iter m α)} (ht : SimIs t u) :
    SimO (mapVerb f cranks t) (mapVerb g cranks u) := by
  unfold mapVerb
  rw [simIs_ranks ht]
  generalize framematch cranks (t.map fun a => (a.rank.toNat, [])) 0 = w
  rcases w with _ | dest
  · exact rfl
  · exact ⟨_, rfl, _, _, rfl, simOp_mapOp h, simIs_zipWith ht⟩

theorem sim_fromOp [LawfulMonad m] {f g : List α → m α} (h : ∀ vs, Sim (f vs) (g vs)) {t u : List (Iter m α)} (ht : SimIs t u) :
    SimO (fromOp f t) (fromOp g u) := by
  unfold fromOp
  rw [simIs_ranks' ht]
  exact sim_mapVerb h ht

theorem simIs_append : ∀ {t u t' u' : List (Iter m α)}, SimIs t u → SimIs t' u' → SimIs (t ++ t') (u ++ u')
  | [], _, _, _, h, h' => by rw [show _ = [] from h]; exact h'
  | _ :: _, _, _, _, h, h' => by obtain ⟨_, _, rfl, h, h2⟩ := h; exact ⟨_, _, rfl, h, simIs_append h2 h'⟩

end

/-! Views. -/

section
variable {α β : Type}

theorem sim_ex {x y : Except Fault α} : Sim x y ↔ (x ≠ .error .check → y = x) := by
  constructor
  · intro h hx
    rcases x with e | a
    · rcases h with rfl | h
      · exact absurd rfl hx
      · exact h
    · obtain ⟨b, rfl, rfl⟩ := h
      rfl
  · intro h
    rcases x with e | a
    · by_cases he : e = .check
      · exact .inl he
      · exact .inr (h (by simpa using he))
    · exact ⟨a, h (by simp), rfl⟩

theorem sim_bind {x y : Except Fault α} {f g : α → Except Fault β} (h : Sim x y) (hf : ∀ a, Sim (f a) (g a)) : Sim (x >>= f) (y >>= g) := by
  refine rbind h ?_
  rintro a _ rfl
  exact hf a

theorem sim_same {x : Except Fault α} : Sim x x := rrefl fun _ => rfl

theorem sim_error {y : Except Fault α} : Sim (.error .check) y := .inl rfl

theorem sim_indexLoop : ∀ (dims : List Dim) (cp : Int) (j : List Int), Sim (indexLoop dims cp j) (NoCheck.indexer dims cp j)
  | [], _, _ => sim_same
  | _ :: _, _, [] => sim_same
  | d :: ds, cp, i :: j => by
    simp only [indexLoop, NoCheck.indexer]
    split
    · exact sim_indexLoop ds _ j
    · exact sim_error

theorem sim_indexer (dims : List Dim) (cp : Int) (j : List Int) : Sim (indexer dims cp j) (NoCheck.indexer dims cp j) := by
  unfold indexer
  split
  · exact sim_indexLoop dims cp j
  · exact sim_error

theorem sim_filldimv : ∀ (s : List Int), Sim (filldimv s) (.ok (NoCheck.filldimv s))
  | [] => sim_same
  | n :: s => by
    have h := sim_filldimv s
    rcases hs : filldimv s with e | ⟨dv, p⟩
    · rw [hs] at h
      rcases h with rfl | h
      · simp only [filldimv, hs, bind, Except.bind]
        exact sim_error
      · exact absurd h (by simp)
    · rw [hs] at h
      obtain ⟨b, hb, rfl⟩ := h
      obtain hb := (Except.ok.inj hb)
      simp only [filldimv, hs, bind, Except.bind, NoCheck.filldimv, hb]
      split
      · exact sim_same
      · exact sim_error

theorem sim_reverse (a : View) (k : Int) : Sim (a.reverse k) (NoCheck.reverse a k) := by
  unfold View.reverse NoCheck.reverse
  split
  · exact sim_same
  · rcases a.dims[k.toNat]? with _ | d
    · exact sim_same
    · simp only
      split
      · exact sim_error
      · split
        · exact sim_same
        · exact sim_error

theorem sim_transpose (a : View) (s : List Int) : Sim (a.transpose s) (NoCheck.transpose a s) := by
  unfold View.transpose NoCheck.transpose
  split
  · exact sim_same
  · split
    · rename_i h
      rw [if_pos (by omega)]
      exact sim_same
    · exact sim_error

theorem sim_ravelFree (a : View) : Sim a.ravelFree (.ok (NoCheck.ravelFree a)) := by
  unfold View.ravelFree NoCheck.ravelFree
  split
  · exact sim_same
  · exact sim_error

theorem sim_quotLoop : ∀ (xs : List Int) (q : Int), Sim (quotLoop q xs) (.ok (xs.foldl (· * ·) q))
  | [], _ => sim_same
  | x :: xs, q => by
    simp only [quotLoop, List.foldl_cons]
    split
    · exact sim_quotLoop xs _
    · exact sim_error

theorem sim_placeholder (la : Int) : ∀ (xs : List Int) (lb : Int), Sim (placeholder la lb xs) (NoCheck.placeholder la lb xs)
  | [], _ => sim_same
  | x :: xs, lb => by
    simp only [placeholder, NoCheck.placeholder]
    split
    · have h := sim_bind (sim_quotLoop xs lb) (f := fun q => if q = 0 then (.error .ub : Except Fault (List Int × Int)) else
          if Int.tmod la q = 0 ∧ Int.tdiv la q ≥ 0 then (.ok (Int.tdiv la q :: xs, la)) else .error .check)
        (g := fun q => if q = 0 then .error .ub else .ok (Int.tdiv la q :: xs, la)) (by
          intro q
          split
          · exact sim_same
          · split
            · exact sim_same
            · exact sim_error)
      exact h
    · exact sim_bind (sim_placeholder la xs _) fun _ => sim_same

theorem sim_reshape (a : View) (s : List Int) : Sim (a.reshape s) (NoCheck.reshape a s) := by
  unfold View.reshape NoCheck.reshape
  refine sim_bind (sim_placeholder _ s 1) ?_
  rintro ⟨sb, lb⟩
  simp only
  rcases reshapeLoop a.dims.reverse sb.reverse with _ | dv
  · simp only
    split
    · rcases a.dims.getLast? with _ | l
      · exact sim_bind (β := View) (y := .ok (NoCheck.filldimv sb)) (g := fun _ => .error .ub) (sim_filldimv sb) fun _ => sim_same
      · exact sim_bind (y := .ok (NoCheck.filldimv sb)) (g := fun r => .ok (View.mk (r.1.map fun d => ⟨d.len, d.step * l.step⟩) a.cp)) (sim_filldimv sb)
          fun _ => sim_same
    · exact sim_error
  · exact sim_same

theorem sim_stencilLoop : ∀ (dv : List Dim) (lo hi : List Int), Sim (stencilLoop dv lo hi) (.ok (NoCheck.stencilLoop dv lo hi))
  | d :: dv, l :: lo, h :: hi => by
    simp only [stencilLoop, NoCheck.stencilLoop]
    split
    · exact sim_bind (sim_stencilLoop dv lo hi) (g := fun r => .ok (⟨d.len - l - h, d.step⟩ :: r.1, ⟨l + h + 1, d.step⟩ :: r.2)) fun _ => sim_same
    · exact sim_error
  | [], _, _ => by simp only [stencilLoop, NoCheck.stencilLoop]; exact sim_same
  | _ :: _, [], _ => by simp only [stencilLoop, NoCheck.stencilLoop]; exact sim_same
  | _ :: _, _ :: _, [] => by simp only [stencilLoop, NoCheck.stencilLoop]; exact sim_same

theorem sim_stencil (a : View) (lo hi : List Int) : Sim (a.stencil lo hi) (NoCheck.stencil a lo hi) := by
  unfold View.stencil NoCheck.stencil
  split
  · split
    · exact sim_bind (sim_stencilLoop a.dims lo hi) (g := fun r => .ok (View.mk (r.1 ++ r.2) a.cp)) fun _ => sim_same
    · exact sim_error
  · exact sim_error

theorem sim_cell (a : View) (cr : Int) : Sim (a.cell cr) (NoCheck.cell a cr) := by
  simp only [View.cell, NoCheck.cell]
  split
  · exact sim_same
  · split
    · exact sim_same
    · exact sim_error

theorem sim_cellAt (a : View) (cr : Int) (j : List Int) : Sim (a.cellAt cr j) (NoCheck.cellAt a cr j) :=
  sim_bind (sim_cell a cr) fun _ => sim_bind (sim_indexer _ _ _) fun _ => sim_same

theorem sim_shapeAt (lens : List Int) (e : LenExpr) : Sim (shapeAt lens e) (NoCheck.shapeAt lens e) := by
  refine sim_bind sim_same fun k => ?_
  split
  · rename_i h
    simp only [inside, Bool.and_eq_true, decide_eq_true_eq] at h
    have hk : k.toNat < lens.length := by omega
    rw [if_pos h.1, List.getElem?_eq_getElem hk, List.getD_eq_getElem?_getD, List.getElem?_eq_getElem hk]
    exact sim_same
  · exact sim_error

theorem sim_iotaLoop (la st i : Int) : ∀ (dv : List Dim) (pl : Int), Sim (iotaLoop la st i pl dv) (.ok (NoCheck.iotaLoop st i pl dv))
  | [], _ => sim_same
  | d :: dv, pl => by
    simp only [iotaLoop, NoCheck.iotaLoop]
    split
    · exact sim_bind (sim_iotaLoop la st i dv _) (g := fun r => .ok (r.1, ⟨d.len, d.step * st⟩ :: r.2)) fun _ => sim_same
    · exact sim_error

theorem sim_fromb : ∀ (is : List Sub) (pl : Int) (bk : Nat) (dims : List Dim), Sim (fromb pl bk dims is) (NoCheck.fromb pl bk dims is)
  | [], _, _, _ => sim_same
  | .scalar e :: is, pl, bk, dims => by
    cases dims with
    | nil => exact sim_same
    | cons d dims =>
      simp only [fromb, NoCheck.fromb]
      refine sim_bind sim_same fun i => ?_
      split
      · exact sim_fromb is _ _ _
      · exact sim_error
  | .iota iz o :: is, pl, bk, dims => by
    cases dims with
    | nil => exact sim_same
    | cons d dims =>
      simp only [fromb, NoCheck.fromb]
      refine sim_bind sim_same fun iz => ?_
      split
      · exact sim_error
      · refine sim_bind sim_same fun i => ?_
        exact sim_bind (sim_iotaLoop _ _ i iz pl) (g := fun r => NoCheck.fromb r.1 (bk + iz.length) dims is >>= fun q => .ok (q.1, r.2 ++ q.2.1, q.2.2))
          fun r => sim_bind (sim_fromb is _ _ _) fun _ => sim_same
  | .dots n :: is, pl, bk, dims => by
    cases n <;>
    · simp only [fromb, NoCheck.fromb]
      split
      · exact sim_same
      · exact sim_bind (sim_fromb is _ _ _) fun _ => sim_same
  | .insert n :: is, pl, bk, dims => sim_bind (sim_fromb is _ _ _) fun _ => sim_same
  | .array :: is, pl, bk, dims => by
    cases dims with
    | nil => exact sim_same
    | cons d dims => exact sim_bind (sim_fromb is _ _ _) fun _ => sim_same

theorem sim_from (a : View) (is : List Sub) : Sim (a.from is) (NoCheck.from a is) := sim_bind (sim_fromb is _ _ _) fun _ => sim_same

theorem sim_viewOp (op : ViewOp) (v : View) : Sim (op.run v) (NoCheck.viewOp op v) := by
  cases op with
  | slice is => exact sim_from v is
  | reverse k => exact sim_reverse v k
  | transpose ax => exact sim_transpose v ax
  | stencil lo hi => exact sim_stencil v lo hi
  | reshape t => exact sim_reshape v t
  | ravel => exact sim_ravelFree v

theorem sim_runOps : ∀ (ops : List ViewOp) (v : View), Sim (runOps ops v) (NoCheck.runOps ops v)
  | [], _ => sim_same
  | op :: ops, v => by
    simp only [runOps, NoCheck.runOps, List.foldlM_cons]
    exact sim_bind (sim_viewOp op v) fun w => sim_runOps ops w

theorem sim_viewOf (as : List Arr) (i : Nat) (ops : List ViewOp) : Sim (viewOf as i ops) (NoCheck.viewOf as i ops) := by
  unfold viewOf NoCheck.viewOf
  rcases as[i]? with _ | a
  · exact sim_same
  · exact sim_runOps ops _

end

/-! Array subscripts and expressions. -/

section
variable {V : Type} {m : Type → Type} {α : Type} [Monad m] [MonadFault m] [SimM m]

theorem sim_elemAt (b : View) (rd : Int → m α) (i : List Int) : Sim (b.elemAt rd i) (NoCheck.elemAt b rd i) := by
  unfold View.elemAt NoCheck.elemAt
  have h := sim_from b (i.map fun x => .scalar (.const x))
  rcases hb : b.from (i.map fun x => .scalar (.const x)) with e | c <;> rw [hb] at h
  · rcases h with rfl | h
    · exact rcheck
    · rw [h]
      exact rfault
  · obtain ⟨c, hc, rfl⟩ := h
    rw [hc]
    exact rrefl fun _ => rfl

/-- Lists of iterators, or a failure. -/
theorem sim_spacer [IndexLike α] (p q : Nat) (dims : List Dim) : rel SimIs (spacer (m := m) (α := α) dims p q) (.ok (NoCheck.spacer dims p q)) := by
  unfold spacer NoCheck.spacer
  generalize (dims.take q).drop p = dv
  induction dv with
  | nil => exact ⟨_, rfl, rfl⟩
  | cons d dv ih =>
    simp only [List.mapM_cons, List.map_cons]
    split
    · exact .inl rfl
    · have h := rbind (S := SimIs) ih (f := fun t => (.ok (.cell [⟨d.len, 1⟩] 0 (fun i => pure (ofIdx i)) :: t) : Except Fault (List (Iter m α))))
        (g := fun t => (.ok (.cell [⟨d.len, 1⟩] 0 (fun i => pure (ofIdx i)) :: t) : Except Fault (List (Iter m α))))
        (fun t u h => ⟨_, rfl, _, _, rfl, ⟨_, rfl, fun _ => rrefl fun _ => rfl⟩, h⟩)
      exact h

theorem simIs_length : ∀ {t u : List (Iter m α)}, SimIs t u → u.length = t.length
  | [], _, h => by rw [show _ = [] from h]
  | _ :: _, _, h => by obtain ⟨_, _, rfl, h, h'⟩ := h; simp only [List.length_cons, simIs_length h']

theorem sim_fromuArgs [IndexLike α] (dims : List Dim) : ∀ (ds : List Nat) (p : Nat) {t u : List (Iter m α)}, SimIs t u →
    rel SimIs (fromuArgs dims p (ds.zip t)) (.ok (NoCheck.fromuArgs dims p (ds.zip u)))
  | [], p, t, u, h => by
    simp only [List.zip_nil_left, fromuArgs, NoCheck.fromuArgs]
    exact sim_spacer _ _ _
  | d :: ds, p, [], u, h => by
    rw [show u = [] from h]
    simp only [List.zip_nil_right, fromuArgs, NoCheck.fromuArgs]
    exact sim_spacer _ _ _
  | d :: ds, p, a :: t, u, h => by
    obtain ⟨a', t', rfl, h, h'⟩ := h
    simp only [List.zip_cons_cons, fromuArgs, NoCheck.fromuArgs]
    have := rbind (S := SimIs) (sim_spacer (m := m) (α := α) p d dims) (f := fun sp => fromuArgs dims (d+1) (ds.zip t) >>= fun rest => .ok (sp ++ a :: rest))
      (g := fun sp => (.ok (NoCheck.fromuArgs dims (d+1) (ds.zip t')) : Except Fault _) >>= fun rest => .ok (sp ++ a' :: rest))
      (fun sp sp' hs => rbind (sim_fromuArgs dims ds (d+1) h') fun r r' hr => ⟨_, rfl, simIs_append hs ⟨_, _, rfl, h, hr⟩⟩)
    exact this

variable [LawfulMonad m] [MonadLiftT (Act V) m]

omit [LawfulMonad m] in
theorem simOp_pickIn (sel : V → Nat) : SimOp (m := m) (pickIn sel) (NoCheck.pickIn sel) := by
  intro xs ys h
  cases h with
  | nil => exact rfault
  | cons h t =>
    refine rbind h ?_
    rintro l _ rfl
    refine rbind (R := Eq) (rrefl fun _ => rfl) ?_
    rintro x _ rfl
    exact sim_pickStar _ _ t

omit [LawfulMonad m] in
theorem sim_gatherOp (n : IndexLike V) (b : View) (xs : List (Lv V)) : Sim (m := m) (gatherOp n b xs) (NoCheck.gatherOp n b xs) := by
  refine rbind (R := Eq) (rrefl fun _ => rfl) ?_
  rintro vs _ rfl
  exact sim_elemAt _ _ _

theorem sim_gather (n : IndexLike V) (w : View) (mask : List Bool) {t u : List (Iter m (Lv V))} (h : SimIs t u) :
    rel SimO (w.gather n mask t) (NoCheck.gather n w mask u) := by
  refine rbind (sim_fromb _ _ _ _) ?_
  rintro ⟨cp, dims, ds⟩ _ rfl
  exact rbind (m := Except Fault) (S := SimO) (@sim_fromuArgs m (Lv V) _ _ _ (lvIndex n) dims ds 0 t u h)
    (f := fun args => .ok (fromOp (gatherOp n ⟨dims, cp⟩) args)) (g := fun args => .ok (fromOp (NoCheck.gatherOp n ⟨dims, cp⟩) args))
    fun args args' ha => ⟨_, rfl, sim_fromOp (sim_gatherOp n _) ha⟩

mutual
theorem sim_iter (as : List Arr) : ∀ (e : FExp V), rel (m := Except Fault) (SimI (m := m)) (e.iter as) (NoCheck.iter as e)
  | .const x => ⟨_, rfl, _, rfl, rrefl fun _ => rfl⟩
  | .index w f => by
    simp only [FExp.iter, NoCheck.iter]
    refine ⟨_, rfl, ?_⟩
    unfold reframe
    split
    · exact ⟨_, rfl, fun _ => rrefl fun _ => rfl⟩
    · exact ⟨_, rfl, _, rfl, fun _ => rrefl fun _ => rfl⟩
  | .iota n o s f => ⟨_, rfl, _, rfl, fun _ => rrefl fun _ => rfl⟩
  | .view i ops => by
    simp only [FExp.iter, NoCheck.iter]
    refine rbind (sim_viewOf as i ops) ?_
    rintro w _ rfl
    exact ⟨_, rfl, _, rfl, fun _ => rrefl fun _ => rfl⟩
  | .gather n i ops mask t => by
    simp only [FExp.iter, NoCheck.iter]
    refine rbind (sim_viewOf as i ops) ?_
    rintro w _ rfl
    refine rbind (sim_iters as t) fun t u h => ?_
    refine rbind (sim_gather n w mask h) fun x y hxy => ?_
    cases x with
    | none => rw [show y = none from hxy]; exact .inr rfl
    | some a =>
      obtain ⟨b, rfl, h⟩ := hxy
      exact ⟨_, rfl, h⟩
  | .map f cranks t => by
    simp only [FExp.iter, NoCheck.iter]
    refine rbind (sim_iters as t) fun t u h => ?_
    have hxy := sim_mapVerb (cranks := cranks) (f := valOpIn f) (g := valOpIn f) (fun _ => rrefl fun _ => rfl) h
    revert hxy
    generalize mapVerb (valOpIn f) cranks t = x
    generalize mapVerb (valOpIn f) cranks u = y
    intro hxy
    cases x with
    | none => rw [show y = none from hxy]; exact .inr rfl
    | some a =>
      obtain ⟨b, rfl, h⟩ := hxy
      exact ⟨_, rfl, h⟩
  | .pick sel t => by
    simp only [FExp.iter, NoCheck.iter]
    exact rbind (sim_iters as t) fun t u h => ⟨_, rfl, _, _, rfl, simOp_pickIn sel, h⟩
  | .fold _ _ _ => .inr rfl
theorem sim_iters (as : List Arr) : ∀ (t : List (FExp V)), rel (m := Except Fault) (SimIs (m := m)) (FExp.iters as t) (NoCheck.iters as t)
  | [] => ⟨_, rfl, rfl⟩
  | e :: t => by
    simp only [FExp.iters, NoCheck.iters]
    exact rbind (sim_iter as e) fun a b h => rbind (sim_iters as t) fun t u h' => ⟨_, rfl, _, _, rfl, h, h'⟩
end

end

/-! Programs. -/

section
variable {V : Type}

theorem sim_lift {α β : Type} {R : α → β → Prop} {x : Except Fault α} {y : Except Fault β} (h : rel R x y) : rel (m := Act V) R (Act.lift x) (Act.lift y) := by
  intro μ
  rcases x with e | a
  · rcases h with h | rfl
    · exact .inl h
    · exact .inr rfl
  · obtain ⟨b, rfl, h⟩ := h
    exact ⟨b, rfl, h⟩

theorem sim_act {α : Type} {x y : Act V α} : Sim x y ↔ ∀ μ, (x μ).1 ≠ .error .check → y μ = x μ := by
  constructor
  · intro h μ hx
    have h := h μ
    rcases hm : x μ with ⟨e | a, μ'⟩ <;> rw [hm] at h hx
    · rcases h with rfl | h
      · exact absurd rfl hx
      · exact h
    · obtain ⟨b, hb, rfl⟩ := h
      exact hb
  · intro h μ
    have h := h μ
    rcases hm : x μ with ⟨e | a, μ'⟩ <;> rw [hm] at h
    · by_cases he : e = .check
      · exact .inl he
      · exact .inr (h (by simpa using he))
    · exact ⟨a, h (by simp), rfl⟩

theorem simIs_two {m : Type → Type} {α : Type} [Monad m] [MonadFault m] [SimM m] {a b a' b' : Iter m α} (h : SimI a a') (h' : SimI b b') : SimIs [a, b] [a', b'] :=
  ⟨_, _, rfl, h, _, _, rfl, h', rfl⟩

theorem sim_forEachRef {f : V → List (Lv V) → Act V V} (dyn : Bool) (z : List Int) (x0 : V) {t u : Iter (StateT V (Act V)) (Lv V)} (h : SimI t u) :
    Sim (forEachRef dyn z f x0 [t]) (NoCheck.forEachRef dyn z f x0 [u]) := by
  have h' : SimI (.node (mapOp fun xs => (do
      let c ← get
      let c' ← (f c xs : Act V V)
      set c'
      pure default : StateT V (Act V) (Lv V))) [t]) (.node (mapOp fun xs => (do
      let c ← get
      let c' ← (f c xs : Act V V)
      set c'
      pure default : StateT V (Act V) (Lv V))) [u]) :=
    ⟨_, _, rfl, simOp_mapOp fun _ => rrefl fun _ => rfl, _, _, rfl, h, rfl⟩
  refine rbind (sim_ply (β := Unit) (dyn := dyn) (stop := never) (z := z) h' x0) ?_
  rintro ⟨_, p⟩ ⟨_, q⟩ ⟨_, hpq⟩
  simp only at hpq
  subst hpq
  exact rpure rfl

mutual
theorem sim_eager (dyn : Bool) (z : List Int) (as : List Arr) : ∀ (e : FExp V), Sim (e.eager dyn z as) (NoCheck.eager dyn z as e)
  | .const x => rrefl fun _ => rfl
  | .index w f => rrefl fun _ => rfl
  | .iota n o s f => rrefl fun _ => rfl
  | .view i ops => rrefl fun _ => rfl
  | .gather n i ops mask t => by
    simp only [FExp.eager, NoCheck.eager]
    refine rbind (sim_eagers dyn z as t) ?_
    rintro t _ rfl
    exact rpure rfl
  | .map f cranks t => by
    simp only [FExp.eager, NoCheck.eager]
    refine rbind (sim_eagers dyn z as t) ?_
    rintro t _ rfl
    exact rpure rfl
  | .pick sel t => by
    simp only [FExp.eager, NoCheck.eager]
    refine rbind (sim_eagers dyn z as t) ?_
    rintro t _ rfl
    exact rpure rfl
  | .fold f x0 e => by
    simp only [FExp.eager, NoCheck.eager]
    refine rbind (sim_eager dyn z as e) ?_
    rintro e _ rfl
    refine rbind (sim_lift (sim_iter as e)) fun t u h => ?_
    refine rbind (sim_forEachRef dyn z x0 h) ?_
    rintro x _ rfl
    exact rpure rfl
theorem sim_eagers (dyn : Bool) (z : List Int) (as : List Arr) : ∀ (t : List (FExp V)), Sim (FExp.eagers dyn z as t) (NoCheck.eagers dyn z as t)
  | [] => rrefl fun _ => rfl
  | e :: t => by
    simp only [FExp.eagers, NoCheck.eagers]
    refine rbind (sim_eager dyn z as e) ?_
    rintro e _ rfl
    refine rbind (sim_eagers dyn z as t) ?_
    rintro t _ rfl
    exact rpure rfl
end

theorem sim_fassign (dyn : Bool) (z : List Int) (as : List Arr) (op : List (Lv V) → Act V (Lv V)) (d e : FExp V) :
    Sim (fassign dyn z as op d e) (NoCheck.fassign dyn z as op d e) := by
  refine rbind (sim_eager dyn z as d) ?_
  rintro d _ rfl
  refine rbind (sim_eager dyn z as e) ?_
  rintro e _ rfl
  refine rbind (sim_lift (sim_iter as d)) fun w w' hw => ?_
  refine rbind (sim_lift (sim_iter as e)) fun t t' ht => ?_
  refine rbind (sim_ply (β := Unit) ⟨_, _, rfl, simOp_mapOp fun _ => rrefl fun _ => rfl, simIs_two hw ht⟩) ?_
  rintro _ _ _
  exact rpure rfl

theorem sim_assign (dyn : Bool) (z : List Int) (op : List (Lv V) → Act V (Lv V)) {d e d' e' : Iter (Act V) (Lv V)} (hd : SimI d d') (he : SimI e e') :
    Sim (do let _ ← ply (β := Unit) dyn never z (.node (mapOp op) [d, e])) (do let _ ← NoCheck.ply (β := Unit) dyn never z (.node (mapOp op) [d', e'])) := by
  refine rbind (sim_ply (β := Unit) ⟨_, _, rfl, simOp_mapOp fun _ => rrefl fun _ => rfl, simIs_two hd he⟩) ?_
  rintro _ _ _
  exact rpure rfl

theorem simI_refs (v : View) : SimI (v.refs : Iter (Act V) (Lv V)) v.refs := ⟨_, rfl, fun _ => rrefl fun _ => rfl⟩

theorem simI_exp (as : List Arr) : ∀ (e : Exp V) {t : Iter (Act V) (Lv V)}, e.iter as = some t → SimI t t
  | .const x, t, h => by
    simp only [Exp.iter, Option.some.injEq] at h
    subst h
    exact ⟨_, rfl, rrefl fun _ => rfl⟩
  | .arr i, t, h => by
    simp only [Exp.iter] at h
    split at h
    · rw [← Option.some.inj h]
      exact simI_refs _
    · cases h
  | .op f a b, t, h => by
    simp only [Exp.iter] at h
    split at h
    · rename_i x y ha hb
      rw [← Option.some.inj h]
      exact ⟨_, _, rfl, simOp_mapOp fun _ => rrefl fun _ => rfl, simIs_two (simI_exp as a ha) (simI_exp as b hb)⟩
    · cases h

/-- Results with state. -/
def SimS {α σ : Type} (x y : Except Fault α × σ) : Prop := x.1 ≠ .error .check → y = x

theorem sim_fillSteps : ∀ {r : List (Int × Int)} {n : Int} {dv : List Dim}, fillSteps r = (.ok n, dv) → NoCheck.filldimv (r.map Prod.fst) = (dv, n)
  | [], _, _, h => by
    simp only [fillSteps, Prod.mk.injEq, Except.ok.injEq] at h
    obtain ⟨rfl, rfl⟩ := h
    rfl
  | (l, st) :: r, n, dv, h => by
    simp only [fillSteps] at h
    split at h
    · cases h
    · rename_i p dv' hr
      have := sim_fillSteps hr
      split at h
      · simp only [Prod.mk.injEq, Except.ok.injEq] at h
        obtain ⟨rfl, rfl⟩ := h
        simp only [List.map_cons, NoCheck.filldimv, this]
      · cases h

theorem sim_fillError : ∀ {r : List (Int × Int)} {e : Fault} {dv : List Dim}, fillSteps r = (.error e, dv) → e = .check
  | [], _, _, h => by cases h
  | (l, st) :: r, n, dv, h => by
    simp only [fillSteps] at h
    split at h
    · rename_i e dv' hr
      simp only [Prod.mk.injEq, Except.error.injEq] at h
      rw [← h.1]
      exact sim_fillError hr
    · split at h
      · cases h
      · simp only [Prod.mk.injEq, Except.error.injEq] at h
        exact h.1.symm

theorem sim_fill (a : Arr) (s : List Int) : SimS (a.fill s) (NoCheck.fill a s) := by
  intro h
  unfold Arr.fill at h ⊢
  split at h
  · exact absurd rfl h
  · rename_i hs
    rw [if_neg hs]
    simp only at h ⊢
    have hm : (s.zip (a.dims.map Dim.step ++ List.replicate (s.length - a.dims.length) 0)).map Prod.fst = s := by
      rw [List.map_fst_zip]
      simp only [List.length_append, List.length_map, List.length_replicate]
      omega
    rcases hr : fillSteps (s.zip (a.dims.map Dim.step ++ List.replicate (s.length - a.dims.length) 0)) with ⟨e | n, dv⟩
    · rw [hr] at h
      rw [sim_fillError hr] at h
      exact absurd rfl h
    · have := sim_fillSteps hr
      rw [hm] at this
      unfold NoCheck.fill
      split
      · rename_i hk
        have hl : s.length = a.dims.length := by
          by_contra hne
          exact hs ⟨hk, hne⟩
        rw [if_neg (by omega), ← hl, List.take_length, this]
      · rw [this]

theorem sim_create (rk : Option Nat) (o : Option Int) (fill : Nat → V) (s : List Int) (μ : Mem V) : SimS (Arr.create rk o fill s μ) (NoCheck.create rk o fill s μ) := by
  intro h
  unfold Arr.create NoCheck.create at *
  have hf := sim_fill ⟨rk, List.replicate (rk.getD 0) ⟨0, 0⟩, 0, 0⟩ s
  rcases hr : Arr.fill ⟨rk, List.replicate (rk.getD 0) ⟨0, 0⟩, 0, 0⟩ s with ⟨e | n, a⟩ <;> rw [hr] at h hf
  · rw [hf (fun he => h (by simp only at he; rw [he]))]
  · rw [hf (by simp)]
    simp only at h ⊢
    split at h
    · rename_i hn
      rw [if_pos hn]
      rfl
    · exact absurd rfl h

theorem sim_resizeShape (o : Option Int) (fill : Nat → V) (s : List Int) (a : Arr) (μ : Mem V) : SimS (a.resizeShape o fill s μ) (NoCheck.resizeShape o fill s a μ) := by
  intro h
  unfold Arr.resizeShape NoCheck.resizeShape at *
  have hf := sim_fill a s
  rcases hr : a.fill s with ⟨e | n, a'⟩ <;> rw [hr] at h hf
  · rw [hf (fun he => h (by simp only at he; rw [he]))]
  · rw [hf (by simp)]

theorem sim_resize (o : Option Int) (fill : Nat → V) (n : Int) (a : Arr) (μ : Mem V) : SimS (a.resize o fill n μ) (NoCheck.resize o fill n a μ) := by
  intro h
  unfold Arr.resize NoCheck.resize at *
  rcases hd : a.dims with _ | ⟨d, ds⟩ <;> rw [hd] at h
  · exact absurd rfl h

theorem sim_pushBack (o : Option Int) (t : V) (a : Arr) (μ : Mem V) : SimS (a.pushBack o t μ) (NoCheck.pushBack o t a μ) := by
  intro h
  unfold Arr.pushBack NoCheck.pushBack at *
  rcases hd : a.dims with _ | ⟨d, _ | ⟨d', ds⟩⟩ <;> rw [hd] at h
  · exact absurd rfl h
  · rcases storeResize o (fun _ => t) (a.n + 1) a μ with ⟨e | u, a', μ'⟩ <;> rfl
  · exact absurd rfl h

theorem sim_popBack (a : Arr) (μ : Mem V) : SimS (a.popBack μ) (NoCheck.popBack a μ) := by
  intro h
  unfold Arr.popBack NoCheck.popBack at *
  rcases hd : a.dims with _ | ⟨d, _ | ⟨d', ds⟩⟩ <;> rw [hd] at h
  · exact absurd rfl h
  · simp only at h ⊢
    split at h
    · rename_i hp
      rw [if_pos hp]
    · exact absurd rfl h
  · exact absurd rfl h

theorem sim_swapDims (a b : Arr) (hl : a.dims.length = b.dims.length) : Sim (swapDims a b) (NoCheck.swapDims a b) := by
  unfold swapDims NoCheck.swapDims
  rw [if_neg (not_not.2 hl)]
  simp only
  split
  · exact sim_error
  · rename_i hc
    split
    · rename_i hk
      have : a.dims.map (fun d => (⟨d.len, 1⟩ : Dim)) = a.dims := by
        have h1 : a.dims.all (fun d => d.step = 1) := by
          by_contra hne
          exact hc ⟨hk, hne⟩
        rw [List.all_eq_true] at h1
        conv_rhs => rw [← List.map_id a.dims]
        refine List.map_congr_left fun d hd => ?_
        have := h1 d hd
        simp only [decide_eq_true_eq] at this
        rw [id, ← this]
      rw [this]
      exact sim_same
    · exact sim_same

/-- The end of `swap`, from the dims. -/
def swapEnd (a b : Arr) : Except Fault (Arr × Arr) → Except Fault Unit × Arr × Arr
  | .error e => (.error e, a, b)
  | .ok (a', b') => (.ok (), { a' with base := b'.base, n := b'.n }, { b' with base := a'.base, n := a'.n })

theorem sim_swapEnd (a b : Arr) {x y : Except Fault (Arr × Arr)} (h : Sim x y) : SimS (swapEnd a b x) (swapEnd a b y) := by
  intro hx
  rw [sim_ex.1 h (by rintro rfl; exact hx rfl)]

theorem sim_swap (a b : Arr) : SimS (a.swap b) (NoCheck.swap a b) := by
  refine sim_swapEnd a b ?_
  split
  · exact sim_same
  · split
    · exact sim_error
    · rename_i hl
      rw [ne_eq, not_not] at hl
      split
      · exact sim_swapDims a b hl
      · exact sim_bind (sim_swapDims b a hl.symm) fun _ => sim_same

theorem sim_onArr (i : Nat) {f g : Arr → Mem V → Except Fault Unit × Arr × Mem V} (h : ∀ a μ, SimS (f a μ) (g a μ)) (as : List Arr) (μ : Mem V) :
    SimS (onArr i f as μ) (onArr i g as μ) := by
  intro hx
  unfold onArr at *
  rcases hi : as[i]? with _ | a
  · rfl
  · simp only [hi] at hx ⊢
    rw [h _ _ hx]

theorem sim_opStep (as : List Arr) (μ : Mem V) (o : Op V) : SimS (o.step as μ) (NoCheck.opStep as μ o) := by
  cases o with
  | default rk => exact fun _ => rfl
  | create rk o fill s =>
    intro h
    simp only [Op.step, NoCheck.opStep] at *
    have hc := sim_create rk o fill s μ
    rcases hr : Arr.create rk o fill s μ with ⟨e | a, μ'⟩ <;> rw [hr] at h hc
    · rw [hc (fun he => h (by simp only at he; rw [he]))]
    · rw [hc (by simp)]
  | resize i o fill n => exact sim_onArr i (sim_resize o fill n) as μ
  | resizeShape i o fill s => exact sim_onArr i (sim_resizeShape o fill s) as μ
  | pushBack i o t => exact sim_onArr i (sim_pushBack o t) as μ
  | popBack i => exact sim_onArr i sim_popBack as μ
  | copy i j o => exact fun _ => rfl
  | swap i j =>
    intro h
    simp only [Op.step, NoCheck.opStep] at *
    rcases hi : as[i]? with _ | a
    · rfl
    · rcases hj : as[j]? with _ | b
      · rfl
      · simp only [hi, hj] at h ⊢
        split at h
        · rename_i hij
          rw [if_pos hij, if_pos hij]
        · rename_i hij
          rw [if_neg hij, if_neg hij, sim_swap a b h]
  | run p => exact fun _ => rfl

theorem sim_cmdStep (dyn : Bool) (z : List Int) (as : List Arr) (μ : Mem V) (c : Cmd V) : SimS (c.step dyn z as μ) (NoCheck.cmdStep dyn z as μ c) := by
  cases c with
  | op o => exact sim_opStep as μ o
  | set i j x =>
    intro h
    simp only [Cmd.step, NoCheck.cmdStep] at *
    rcases hi : as[i]? with _ | a
    · rfl
    · simp only [hi] at h ⊢
      split at h
      · rename_i hj
        rw [if_pos hj, if_pos hj, sim_act.1 (sim_elemAt a.view _ j) μ h]
      · rename_i hj
        rw [if_neg hj, if_neg hj]
  | assign i e =>
    intro h
    simp only [Cmd.step, NoCheck.cmdStep] at *
    rcases hi : as[i]? with _ | a
    · rfl
    · rcases ht : e.iter as with _ | t
      · rfl
      · simp only [hi, ht] at h ⊢
        rw [show NoCheck.assign dyn z a.view.refs t μ = Ra.assign dyn z a.view.refs t μ from
          sim_act.1 (sim_assign dyn z setOp (simI_refs a.view) (simI_exp as e ht)) μ h]
  | update f i e =>
    intro h
    simp only [Cmd.step, NoCheck.cmdStep] at *
    rcases hi : as[i]? with _ | a
    · rfl
    · rcases ht : e.iter as with _ | t
      · rfl
      · simp only [hi, ht] at h ⊢
        rw [show NoCheck.update f dyn z a.view.refs t μ = Ra.update f dyn z a.view.refs t μ from
          sim_act.1 (sim_assign dyn z (updOp f) (simI_refs a.view) (simI_exp as e ht)) μ h]

theorem sim_andDo {c d : Except Fault Arr × Mem V} {f g : Arr → Act V Unit} (h : SimS c d) (hf : ∀ a, Sim (f a) (g a)) : SimS (Arr.andDo c f) (Arr.andDo d g) := by
  intro hx
  rcases c with ⟨e | a, μ⟩
  · rw [h hx]
    rfl
  · rw [h (by simp)]
    simp only [Arr.andDo] at *
    rcases hm : f a μ with ⟨e | u, μ'⟩ <;> rw [hm] at hx
    · rw [sim_act.1 (hf a) μ (by rw [hm]; exact fun he => hx (by simp only at he; rw [he])), hm]
    · rw [sim_act.1 (hf a) μ (by rw [hm]; simp), hm]

theorem simI_shape {m : Type → Type} {α : Type} [Monad m] [MonadFault m] [SimM m] {a b : Iter m α} (h : SimI a b) : b.shape = a.shape := by
  unfold Iter.shape
  rw [simI_rank h, show b.len = a.len from funext (simI_len h)]

theorem sim_fmake (dyn : Bool) (z : List Int) (as : List Arr) (rk : Option Nat) (o : Option Int) (fill : Nat → V) (e : FExp V) :
    Sim (fmake dyn z as rk o fill e) (NoCheck.fmake dyn z as rk o fill e) := by
  refine rbind (sim_eager dyn z as e) ?_
  rintro e _ rfl
  refine rbind (sim_lift (sim_iter as e)) fun t u h => sim_act.2 fun μ hx => ?_
  rw [simI_shape h]
  exact sim_andDo (sim_create rk o fill t.shape μ) (fun a => sim_assign dyn z setOp (simI_refs a.view) h) hx

theorem sim_step (dyn : Bool) (z : List Int) (as : List Arr) (μ : Mem V) (c : FCmd V) : SimS (c.step dyn z as μ) (NoCheck.step dyn z as μ c) := by
  cases c with
  | cmd c => exact sim_cmdStep dyn z as μ c
  | assign d e =>
    intro h
    simp only [FCmd.step, NoCheck.step] at *
    rw [sim_act.1 (sim_fassign dyn z as setOp d e) μ h]
  | update f d e =>
    intro h
    simp only [FCmd.step, NoCheck.step] at *
    rw [sim_act.1 (sim_fassign dyn z as (updOp f) d e) μ h]
  | make rk o fill e =>
    intro h
    simp only [FCmd.step, NoCheck.step] at *
    have hs := sim_act.1 (sim_fmake dyn z as rk o fill e) μ
    rcases hm : fmake dyn z as rk o fill e μ with ⟨e | a, μ'⟩ <;> rw [hm] at h hs
    · rw [hs (fun he => h (by simp only at he; rw [he]))]
    · rw [hs (by simp)]

end
end Ra.Props
