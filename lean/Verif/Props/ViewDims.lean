import Verif.Model.ViewDims
import Verif.Props.Fill
import Verif.Props.Matrix
import Verif.Props.ShapeArg
import Verif.Props.Cat
/-!
# C106: views made from dims, and conversions between types of views
-/

namespace Ra.Spec

/-- An axis with this length and step may be in a view of this type: where the type has a length or a step, it's the same. -/
def AxisFits (t : AxisType) (d : Dim) : Prop := (∀ n, t.len = some n → d.len = n) ∧ ∀ s, t.step = some s → d.step = s

/-- A view of this type may have these dims: if the type has a rank, there are that many axes, and each of them fits. -/
def FitsType (ts : Option (List AxisType)) (ds : List Dim) : Prop :=
  ∀ l, ts = some l → l.length = ds.length ∧ ∀ (k : Nat) (t : AxisType) (d : Dim), l[k]? = some t → ds[k]? = some d → AxisFits t d

/-- `s` gives the dims `ds` for a view of type `ts`: it's a list of dims, or it's as long as needed and the type has the rank, or it's a single one. Its elements aren't at the addresses `b`, `b+1`, ... where the
new ones go. -/
def GivesDims (ts : Option (List AxisType)) (b : Int) (s : Iter (Act Dim) (Lv Dim)) (μ : Mem Dim) (ds : List Dim) : Prop :=
  (HasShape s [some ds.length] ∨ (HasShape s [none] ∧ ∃ l, ts = some l ∧ l.length = ds.length) ∨ (HasShape s [] ∧ ds.length = 1)) ∧
  ∀ (k : Nat) (d : Dim), ds[k]? = some d → ∀ μ' : Mem Dim, (∀ p, ¬ (b ≤ p ∧ p < b + ds.length) → μ' p = μ p) → Reads μ' (elem s [(k : Int)]) d

end Ra.Spec

namespace Ra.Props
open Spec

/-- The dim in a view of this type, when `d` is assigned to it without checks. -/
def blend (t : AxisType) (d : Dim) : Dim := ⟨t.len.getD d.len, t.step.getD d.step⟩

theorem blend_fits (t : AxisType) (d : Dim) (h : AxisFits t d) : blend t d = d := by
  obtain ⟨h1, h2⟩ := h
  unfold blend
  cases hl : t.len with
  | none =>
    cases hs : t.step with
    | none => rfl
    | some s => simp [← h2 s hs]
  | some n =>
    cases hs : t.step with
    | none => simp [← h1 n hl]
    | some s => simp [← h2 s hs, ← h1 n hl]

theorem write_some {V : Type} {μ : Mem V} {p : Int} {v w : V} (h : μ p = some w) : Act.write p v μ = (.ok (), μ.upd p v) := by
  simp [Act.write, h]

theorem read_some {V : Type} {μ : Mem V} {p : Int} {w : V} (h : μ p = some w) : Act.read p μ = (.ok w, μ) := by
  simp [Act.read, h]

theorem upd_same {V : Type} (μ : Mem V) (p : Int) (v : V) (h : μ p = some v) : μ.upd p v = μ := by
  funext q
  unfold Mem.upd
  split_ifs with hq
  · rw [hq, h]
  · rfl

theorem upd_upd {V : Type} (μ : Mem V) (p : Int) (v w : V) : (μ.upd p v).upd p w = μ.upd p w := by
  funext q
  unfold Mem.upd
  split_ifs <;> rfl

open Classical in
/-- One axis. -/
theorem setDim_run (ck : Bool) (ts : List AxisType) (b : Int) (k : Nat) (μ : Mem Dim) (e x : Act Dim (Lv Dim)) (d : Dim) (he : Refers μ e (b + k)) (hx : Reads μ x d)
    (h0 : μ (b + k) = some ⟨(ts.getD k ⟨none, none⟩).len.getD 0, (ts.getD k ⟨none, none⟩).step.getD 0⟩) :
    if ck = false ∨ AxisFits (ts.getD k ⟨none, none⟩) d then mapOp (setDim ck ts b) [e, x] μ = (.ok (.ref (b + k)), μ.upd (b + k) (blend (ts.getD k ⟨none, none⟩) d))
    else ∃ μ', mapOp (setDim ck ts b) [e, x] μ = (.error .check, μ') := by
  obtain ⟨r, hr, hv⟩ := reads_elim hx
  have hk : (b + (k : Int) - b).toNat = k := by omega
  rw [mapM_two, act_bind_ok he, act_bind_ok hr, setDim, act_bind_ok hv, hk]
  generalize ts.getD k ⟨none, none⟩ = t at *
  obtain ⟨tl, ts'⟩ := t
  have hu : ∀ v : Dim, (μ.upd (b + k) v) (b + k) = some v := fun v => by simp [Mem.upd]
  have fin : ∀ (X : Act Dim Unit) (μ1 : Mem Dim), X μ = (.ok (), μ1) → ∀ (Y : Act Dim Unit) (μ2 : Mem Dim), Y μ1 = (.ok (), μ2) →
      (do X; Y; pure (Lv.ref (b + k)) : Act Dim (Lv Dim)) μ = (.ok (.ref (b + k)), μ2) := by
    intro X μ1 h1 Y μ2 h2
    rw [act_bind_ok h1, act_bind_ok h2]; rfl
  have bad1 : ∀ (X : Act Dim Unit) (μ1 : Mem Dim), X μ = (.error .check, μ1) → ∀ (Y : Act Dim Unit),
      (do X; Y; pure (Lv.ref (b + k)) : Act Dim (Lv Dim)) μ = (.error .check, μ1) := by
    intro X μ1 h1 Y
    rw [act_bind, h1]
  have bad2 : ∀ (X : Act Dim Unit) (μ1 : Mem Dim), X μ = (.ok (), μ1) → ∀ (Y : Act Dim Unit) (μ2 : Mem Dim), Y μ1 = (.error .check, μ2) →
      (do X; Y; pure (Lv.ref (b + k)) : Act Dim (Lv Dim)) μ = (.error .check, μ2) := by
    intro X μ1 h1 Y μ2 h2
    rw [act_bind_ok h1, act_bind, h2]
  cases tl with
  | none =>
    have e1 : AxisType.setLen ck ⟨none, ts'⟩ (b + k) d μ = (.ok (), μ.upd (b + k) ⟨d.len, ts'.getD 0⟩) := by
      unfold AxisType.setLen; simp only []
      rw [act_bind_ok (read_some h0), write_some h0]
    cases ts' with
    | none =>
      rw [if_pos (.inr ⟨by simp, by simp⟩)]
      refine (fin _ _ e1 _ (μ.upd (b + k) ⟨d.len, d.step⟩) ?_)
      unfold AxisType.setStep; simp only []
      rw [act_bind_ok (read_some (hu _)), write_some (hu _), upd_upd]
    | some s =>
      by_cases hc : ck = false ∨ d.step = s
      · rw [if_pos (by rcases hc with h | h; exact .inl h; exact .inr ⟨by simp, by simpa using h⟩)]
        refine fin _ _ e1 _ _ ?_
        unfold AxisType.setStep; simp only []
        rw [if_neg (by rcases hc with h | h <;> simp [h])]
        rfl
      · rw [if_neg (by rintro (h | ⟨_, h⟩); exact hc (.inl h); exact hc (.inr (h s rfl)))]
        push Not at hc
        refine ⟨_, bad2 _ _ e1 _ (μ.upd (b + k) ⟨d.len, s⟩) ?_⟩
        unfold AxisType.setStep; simp only []
        rw [if_pos ⟨by simpa using hc.1, fun h => hc.2 h.symm⟩]
        rfl
  | some n =>
    by_cases hc : ck = false ∨ d.len = n
    · have e1 : AxisType.setLen ck ⟨some n, ts'⟩ (b + k) d μ = (.ok (), μ) := by
        unfold AxisType.setLen; simp only []
        rw [if_neg (by rcases hc with h | h <;> simp [h])]
        rfl
      cases ts' with
      | none =>
        rw [if_pos (by rcases hc with h | h; exact .inl h; exact .inr ⟨by simpa using h, by simp⟩)]
        refine fin _ _ e1 _ _ ?_
        unfold AxisType.setStep; simp only []
        rw [act_bind_ok (read_some h0), write_some h0]
        rfl
      | some s =>
        by_cases hc' : ck = false ∨ d.step = s
        · rw [if_pos (by rcases hc with h | h; exact .inl h; rcases hc' with h' | h'; exact .inl h'; exact .inr ⟨by simpa using h, by simpa using h'⟩)]
          refine fin _ _ e1 _ _ ?_
          unfold AxisType.setStep; simp only []
          rw [if_neg (by rcases hc' with h | h <;> simp [h])]
          have hs : μ.upd (b + k) (blend ⟨some n, some s⟩ d) = μ := upd_same _ _ _ h0
          rw [hs]
          rfl
        · rw [if_neg (by rintro (h | ⟨_, h⟩); exact hc' (.inl h); exact hc' (.inr (h s rfl)))]
          push Not at hc'
          refine ⟨_, bad2 _ _ e1 _ μ ?_⟩
          unfold AxisType.setStep; simp only []
          rw [if_pos ⟨by simpa using hc'.1, fun h => hc'.2 h.symm⟩]
          rfl
    · rw [if_neg (by rintro (h | ⟨h, _⟩); exact hc (.inl h); exact hc (.inr (h n rfl)))]
      push Not at hc
      refine ⟨μ, bad1 _ _ ?_ _⟩
      unfold AxisType.setLen; simp only []
      rw [if_pos ⟨by simpa using hc.1, fun h => hc.2 h.symm⟩]
      rfl

/-- What's in a view of this type before its dims are assigned. -/
def blank (t : AxisType) : Dim := ⟨t.len.getD 0, t.step.getD 0⟩

open Classical in
/-- The axes from `k` on. -/
theorem setDims_run (ck : Bool) (ts : List AxisType) (b : Int) (n : Nat) (s : Iter (Act Dim) (Lv Dim)) (dst : Iter (Act Dim) (Lv Dim)) (d : Nat → Dim) (μ : Mem Dim)
    (hd : ∀ (k : Nat) (μ' : Mem Dim), k < n → Refers μ' (elem dst [(k : Int)]) (b + k))
    (hs : ∀ k : Nat, k < n → ∀ μ' : Mem Dim, (∀ p, ¬ (b ≤ p ∧ p < b + n) → μ' p = μ p) → Reads μ' (elem s [(k : Int)]) (d k)) (i : Nat) :
    ∀ (k : Nat) (μ' : Mem Dim), k + i = n → (∀ p, ¬ (b ≤ p ∧ p < b + n) → μ' p = μ p) → (∀ l : Nat, k ≤ l → l < n → μ' (b + l) = some (blank (ts.getD l ⟨none, none⟩))) →
    if ck = false ∨ ∀ l : Nat, k ≤ l → l < n → AxisFits (ts.getD l ⟨none, none⟩) (d l) then
      ∃ μ'', forAll (fun j => mapOp (setDim ck ts b) [elem dst j, elem s j]) ((List.range' k i).map fun (k : Nat) => [(k : Int)]) μ' = (.ok (), μ'') ∧
        (∀ l : Nat, k ≤ l → l < n → μ'' (b + l) = some (blend (ts.getD l ⟨none, none⟩) (d l))) ∧ ∀ p, ¬ (b + k ≤ p ∧ p < b + n) → μ'' p = μ' p
    else ∃ μ'', forAll (fun j => mapOp (setDim ck ts b) [elem dst j, elem s j]) ((List.range' k i).map fun (k : Nat) => [(k : Int)]) μ' = (.error .check, μ'') := by
  induction i with
  | zero =>
    intro k μ' hk hout hin
    rw [if_pos (.inr fun l h1 h2 => by omega)]
    exact ⟨μ', rfl, fun l h1 h2 => by omega, fun _ _ => rfl⟩
  | succ i ih =>
    intro k μ' hk hout hin
    have hkn : k < n := by omega
    have step := setDim_run ck ts b k μ' (elem dst [(k : Int)]) (elem s [(k : Int)]) (d k) (hd k μ' hkn) (hs k hkn μ' hout) (hin k le_rfl hkn)
    rw [List.range'_succ, List.map_cons]
    simp only [forAll]
    by_cases hf : ck = false ∨ AxisFits (ts.getD k ⟨none, none⟩) (d k)
    · rw [if_pos hf] at step
      rw [act_bind_ok step]
      have := ih (k+1) (μ'.upd (b + k) (blend (ts.getD k ⟨none, none⟩) (d k))) (by omega)
        (fun p hp => by unfold Mem.upd; rw [if_neg (by rintro rfl; exact hp ⟨by omega, by omega⟩), hout p hp])
        (fun l h1 h2 => by unfold Mem.upd; rw [if_neg (by omega), hin l (by omega) h2])
      by_cases ha : ck = false ∨ ∀ l : Nat, k + 1 ≤ l → l < n → AxisFits (ts.getD l ⟨none, none⟩) (d l)
      · rw [if_pos ha] at this
        have ha' : ck = false ∨ ∀ l : Nat, k ≤ l → l < n → AxisFits (ts.getD l ⟨none, none⟩) (d l) := by
          rcases ha with ha | ha
          · exact .inl ha
          rcases hf with hf | hf
          · exact .inl hf
          refine .inr fun l h1 h2 => ?_
          rcases Nat.eq_or_lt_of_le h1 with rfl | h
          · exact hf
          · exact ha l h h2
        rw [if_pos ha']
        obtain ⟨μ'', h1, h2, h3⟩ := this
        refine ⟨μ'', h1, fun l hl hn => ?_, fun p hp => ?_⟩
        · rcases Nat.eq_or_lt_of_le hl with rfl | h
          · rw [h3 _ (by push_cast; omega)]
            simp [Mem.upd]
          · exact h2 l h hn
        · rw [h3 p (by push_cast at hp ⊢; omega)]
          unfold Mem.upd
          rw [if_neg (by rintro rfl; exact hp ⟨le_rfl, by omega⟩)]
      · rw [if_neg ha] at this
        rw [if_neg (fun h => ha (h.imp id fun h l h1 h2 => h l (by omega) h2))]
        exact this
    · rw [if_neg hf] at step
      obtain ⟨μ1, h1⟩ := step
      rw [if_neg (fun h => hf (h.imp id fun h => h k le_rfl hkn))]
      exact ⟨μ1, by rw [act_bind, h1]⟩

theorem merge_dims (n : Nat) (sx : List Length) (h : sx = [some n] ∨ sx = [none] ∨ sx = []) : Merge [[some n], sx] ([n].map some) := by
  refine ⟨?_, ⟨[some n], by simp, rfl⟩, ?_⟩
  · rcases h with rfl | rfl | rfl <;> simp
  · intro k m
    simp only [List.map_cons, List.map_nil]
    constructor
    · intro hk; exact ⟨[some n], by simp, hk⟩
    · rintro ⟨x, hx, hk⟩
      rcases List.mem_cons.mp hx with rfl | hx
      · exact hk
      · obtain rfl := List.mem_singleton.mp hx
        rcases h with rfl | rfl | rfl
        · exact hk
        · rcases k with _ | k <;> simp at hk
        · simp at hk

theorem mapM_read {V : Type} (b : Int) (μ : Mem V) (d : Nat → V) (l : List Nat) (h : ∀ k ∈ l, μ (b + k) = some (d k)) : (l.mapM fun (k : Nat) => Act.read (b + k) : Act V (List V)) μ = (.ok (l.map d), μ) := by
  induction l with
  | nil => simp; rfl
  | cons k l ih =>
    rw [List.mapM_cons, act_bind_ok (read_some (h k (by simp))), act_bind_ok (ih fun j hj => h j (by simp [hj]))]
    rfl

theorem refs_vector (b : Int) (n : Nat) : HasShape (View.refs ⟨[⟨n, 1⟩], b⟩ : Iter (Act Dim) (Lv Dim)) [some n] := refs_shape (v := ⟨[⟨n, 1⟩], b⟩) (by simp [Shaped, DimLen])

theorem refs_at (b : Int) (n k : Nat) (μ : Mem Dim) : Refers μ (elem (View.refs ⟨[⟨n, 1⟩], b⟩ : Iter (Act Dim) (Lv Dim)) [(k : Int)]) (b + k) := by
  have := refers_refs μ (⟨[⟨n, 1⟩], b⟩ : View) [(k : Int)]
  simpa [address, dot] using this

theorem getD_range {X : Type} (l : List X) (x : X) : (List.range l.length).map (fun k => l.getD k x) = l := by
  apply List.ext_getElem
  · simp
  · intro i h1 h2
    simp at h1
    simp [h1]

open Classical in
/-- With or without checks. -/
theorem ofDims_run (ck : Bool) (ts : Option (List AxisType)) (b cp : Int) (dyn : Bool) (z : List Int) (hz : ∀ i ∈ z, i = 0) (s : Iter (Act Dim) (Lv Dim)) (ds : List Dim) (μ : Mem Dim)
    (h : GivesDims ts b s μ ds) (hr : ∀ l, ts = some l → l.length = ds.length) :
    if ck = false ∨ FitsType ts ds then
      ∃ μ', View.ofDims ck ts b dyn z s cp μ = (.ok ⟨(List.range ds.length).map fun k => blend ((ts.getD []).getD k ⟨none, none⟩) (ds.getD k ⟨0, 0⟩), cp⟩, μ') ∧
        ∀ p, ¬ (b ≤ p ∧ p < b + ds.length) → μ' p = μ p
    else ∃ μ', View.ofDims ck ts b dyn z s cp μ = (.error .check, μ') := by
  obtain ⟨hsh, hrd⟩ := h
  have hcount : dimsCount ck ts s.size = .ok ds.length := by
    unfold dimsCount
    rcases hsh with h | ⟨h, l, hl, hl'⟩ | ⟨h, h1⟩
    · rw [size_finite s _ h]
      cases ts with
      | none => simp only []; rw [if_neg (by omega), if_neg (by omega)]; simp
      | some l => simp only []; rw [if_neg (by rw [hr l rfl]; simp), hr l rfl]
    · rw [size_unbounded s h, hl]
      simp only []; rw [if_neg (by simp), hl']
    · rw [size_scalar s h, h1]
      cases ts with
      | none => simp
      | some l => simp only []; rw [if_neg (by rw [hr l rfl, h1]; simp), hr l rfl, h1]
  have hshape : ∃ sx, HasShape s sx ∧ (sx = [some ds.length] ∨ sx = [none] ∨ sx = []) := by
    rcases hsh with h | ⟨h, _⟩ | ⟨h, _⟩
    · exact ⟨_, h, .inl rfl⟩
    · exact ⟨_, h, .inr (.inl rfl)⟩
    · exact ⟨_, h, .inr (.inr rfl)⟩
  obtain ⟨sx, hsx, hsx'⟩ := hshape
  have hfits : FitsType ts ds ↔ ∀ l : Nat, 0 ≤ l → l < ds.length → AxisFits ((ts.getD []).getD l ⟨none, none⟩) (ds.getD l ⟨0, 0⟩) := by
    cases ts with
    | none =>
      simp only [Option.getD_none]
      refine ⟨fun _ l _ _ => ⟨by simp, by simp⟩, fun _ l hl => by simp at hl⟩
    | some l0 =>
      simp only [Option.getD_some]
      have hl0 := hr l0 rfl
      constructor
      · intro hf l _ hl
        obtain ⟨_, hf⟩ := hf l0 rfl
        refine hf l _ _ ?_ ?_
        · simp [hl0, hl]
        · simp [hl]
      · intro hf l hl
        obtain rfl : l0 = l := by simpa using hl
        refine ⟨hl0, fun k t d hk hd => ?_⟩
        have hkl : k < ds.length := (List.getElem?_eq_some_iff.mp hd).1
        have := hf k (Nat.zero_le _) hkl
        simpa [List.getD, hk, hd] using this
  have hnew : ∀ p, ¬ (b ≤ p ∧ p < b + ds.length) → newDims (ts.getD []) ds.length b μ p = μ p := by
    intro p hp; unfold newDims; rw [if_neg hp]
  have hnew' : ∀ l : Nat, l < ds.length → newDims (ts.getD []) ds.length b μ (b + l) = some (blank ((ts.getD []).getD l ⟨none, none⟩)) := by
    intro l hl
    unfold newDims
    rw [if_pos ⟨by omega, by omega⟩]
    simp [blank]
  have run := setDims_run ck (ts.getD []) b ds.length s (View.refs ⟨[⟨ds.length, 1⟩], b⟩) (fun k => ds.getD k ⟨0, 0⟩) μ (fun k μ' _ => refs_at b _ k μ')
    (fun k hk μ' hμ => hrd k _ (by simp [hk]) μ' hμ) ds.length 0 (newDims (ts.getD []) ds.length b μ) (by simp) hnew (fun l _ hl => hnew' l hl)
  have trav := run_forAll (β := Unit) dyn z hz (mapOp (setDim ck (ts.getD []) b)) (View.refs ⟨[⟨ds.length, 1⟩], b⟩) s [some ds.length] sx [ds.length] (refs_vector b _) hsx (merge_dims _ _ hsx')
  rw [rowMajor_one, List.range_eq_range'] at trav
  have unf : View.ofDims ck ts b dyn z s cp μ = (do
      (do let _ ← ply (β := Unit) dyn never z (.node (mapOp (setDim ck (ts.getD []) b)) [View.refs ⟨[⟨ds.length, 1⟩], b⟩, s]); pure () : Act Dim Unit)
      let l ← (List.range ds.length).mapM fun (k : Nat) => Act.read (b + k)
      pure ⟨l, cp⟩ : Act Dim View) (newDims (ts.getD []) ds.length b μ) := by
    unfold View.ofDims
    rw [act_bind_ok (show Act.lift (dimsCount ck ts s.size) μ = (.ok ds.length, μ) by rw [hcount]; rfl)]
    rw [act_bind_ok (show startDims (ts.getD []) ds.length b μ = (.ok (), newDims (ts.getD []) ds.length b μ) from rfl)]
    simp only [bind_assoc, pure_bind]
  rw [unf, trav]
  by_cases hc : ck = false ∨ FitsType ts ds
  · rw [if_pos hc]
    rw [if_pos (hc.imp id hfits.mp)] at run
    obtain ⟨μ'', h1, h2, h3⟩ := run
    refine ⟨μ'', ?_, fun p hp => by rw [h3 p (by simpa using hp), hnew p hp]⟩
    rw [act_bind_ok h1, act_bind_ok (mapM_read b μ'' _ _ fun k hk => h2 k (Nat.zero_le _) (List.mem_range.mp hk))]
    rfl
  · rw [if_neg hc]
    rw [if_neg (fun h => hc (h.imp id hfits.mpr))] at run
    obtain ⟨μ'', h1⟩ := run
    exact ⟨μ'', by rw [act_bind, h1]⟩

/-! ## C106 -/

/-- C106. A view that's made from dims that fit its type has those dims, and nothing else changes. -/
theorem C106_dims (ts : Option (List AxisType)) (b cp : Int) (dyn : Bool) (z : List Int) (hz : ∀ i ∈ z, i = 0) (s : Iter (Act Dim) (Lv Dim)) (ds : List Dim) (μ : Mem Dim)
    (h : GivesDims ts b s μ ds) (hf : FitsType ts ds) :
    ∃ μ', View.ofDims true ts b dyn z s cp μ = (.ok ⟨ds, cp⟩, μ') ∧ ∀ p, ¬ (b ≤ p ∧ p < b + ds.length) → μ' p = μ p := by
  have := ofDims_run true ts b cp dyn z hz s ds μ h fun l hl => (hf l hl).1
  rw [if_pos (.inr hf)] at this
  have hb : ((List.range ds.length).map fun k => blend ((ts.getD []).getD k ⟨none, none⟩) (ds.getD k ⟨0, 0⟩)) = ds := by
    conv_rhs => rw [← getD_range ds ⟨0, 0⟩]
    apply List.map_congr_left
    intro k hk
    rw [List.mem_range] at hk
    apply blend_fits
    cases ts with
    | none => exact ⟨by simp, by simp⟩
    | some l =>
      obtain ⟨hl, hf⟩ := hf l rfl
      exact hf k _ _ (by simp [hl, hk]) (by simp [hk])
  rw [hb] at this
  exact this

/-- C106. If they don't fit, the check fails. -/
theorem C106_misfit (ts : Option (List AxisType)) (b cp : Int) (dyn : Bool) (z : List Int) (hz : ∀ i ∈ z, i = 0) (s : Iter (Act Dim) (Lv Dim)) (ds : List Dim) (μ : Mem Dim)
    (h : GivesDims ts b s μ ds) (hf : ¬ FitsType ts ds) : ∃ μ', View.ofDims true ts b dyn z s cp μ = (.error .check, μ') := by
  by_cases hr : ∀ l, ts = some l → l.length = ds.length
  · have := ofDims_run true ts b cp dyn z hz s ds μ h hr
    rw [if_neg (by simp [hf])] at this
    exact this
  · push Not at hr
    obtain ⟨l, rfl, hl⟩ := hr
    refine ⟨μ, ?_⟩
    have hcount : dimsCount true (some l) s.size = .error .check := by
      unfold dimsCount
      simp only []
      rw [if_pos]
      rcases h.1 with h | ⟨_, l', h', hl'⟩ | ⟨h, h1⟩
      · rw [size_finite s _ h]
        have : UNB < 0 := by decide
        exact ⟨trivial, by omega, by omega⟩
      · obtain rfl : l = l' := by simpa using h'
        exact absurd hl' hl
      · rw [size_scalar s h]
        exact ⟨trivial, by omega, by decide⟩
    unfold View.ofDims
    rw [act_bind, hcount]
    rfl

/-- C106. So does it if the number of dims isn't the rank, or if the dims are in the wrong shape: the traversal has to match the list of axes with the shape of the dims. -/
theorem C106_reject (ts : Option (List AxisType)) (b cp : Int) (dyn : Bool) (z : List Int) (s : Iter (Act Dim) (Lv Dim)) (s' : List Nat) (μ : Mem Dim) (h : HasShape s (s'.map some))
    (hn : (∃ l, ts = some l ∧ l.length ≠ size s') ∨ (s' ≠ [] ∧ s'.head? ≠ some (size s'))) : ∃ μ', View.ofDims true ts b dyn z s cp μ = (.error .check, μ') := by
  have hsz : s.size = size s' := shape_size h
  have hu : UNB < 0 := by decide
  unfold View.ofDims
  by_cases hl : ∃ l, ts = some l ∧ l.length ≠ size s'
  · obtain ⟨l, rfl, hl⟩ := hl
    refine ⟨μ, ?_⟩
    have : dimsCount true (some l) s.size = .error .check := by
      unfold dimsCount
      simp only []
      rw [if_pos ⟨trivial, by omega, by omega⟩]
    rw [act_bind, this]
    rfl
  · have hcount : dimsCount true ts s.size = .ok (size s') := by
      unfold dimsCount
      cases ts with
      | none => simp only []; rw [if_neg (by omega), if_neg (by omega), hsz]; simp
      | some l =>
        have : l.length = size s' := by by_contra h; exact hl ⟨l, rfl, h⟩
        simp only []; rw [if_neg (by rw [hsz, this]; simp), this]
    rw [act_bind_ok (show Act.lift (dimsCount true ts s.size) μ = (.ok (size s'), μ) by rw [hcount]; rfl)]
    rw [act_bind_ok (show startDims (ts.getD []) (size s') b μ = (.ok (), newDims (ts.getD []) (size s') b μ) from rfl)]
    obtain ⟨hne, hh⟩ := hn.resolve_left hl
    have hm : ¬ ∃ t : List Nat, Merge [[some (size s')], s'.map some] (t.map some) := by
      rintro ⟨t, h1, h2, h3⟩
      obtain ⟨a, r, rfl⟩ := List.exists_cons_of_ne_nil hne
      have e1 := (h3 0 (size (a :: r))).mpr ⟨[some (size (a :: r))], by simp, by simp⟩
      have e2 := (h3 0 a).mpr ⟨(a :: r).map some, by simp, by simp⟩
      rw [e1] at e2
      simp only [Option.some.injEq] at e2
      exact hh (by simp [e2])
    have hs2 : HasShapes [View.refs ⟨[⟨(size s' : Nat), 1⟩], b⟩, s] [[some (size s')], s'.map some] := ⟨_, _, rfl, refs_vector b _, _, _, rfl, h, rfl⟩
    obtain ⟨h1, h2, _⟩ := C03_rejects (β := Unit) never (mapOp (setDim true (ts.getD []) b)) _ _ hs2 (by simp) hm z
    refine ⟨newDims (ts.getD []) (size s') b μ, ?_⟩
    have : ply (β := Unit) dyn never z (.node (mapOp (setDim true (ts.getD []) b)) [View.refs ⟨[⟨(size s' : Nat), 1⟩], b⟩, s]) = fault .check := by
      unfold ply
      rw [h1, h2]
      cases dyn <;> rfl
    rw [this]
    rfl

/-- C106. A view converts to another type of view if its dims fit that type, and then it's the same view: the same elements in the same places. Otherwise the check fails. -/
theorem C106_convert (src dst : Option (List AxisType)) (b : Int) (dyn : Bool) (z : List Int) (hz : ∀ i ∈ z, i = 0) (v : View) (hv : FitsType src v.dims) (μ : Mem Dim) :
    (FitsType dst v.dims → ∃ μ', View.convert true src dst b dyn z v μ = (.ok v, μ') ∧ ∀ p, ¬ (b ≤ p ∧ p < b + v.dims.length) → μ' p = μ p) ∧
    (¬ FitsType dst v.dims → ∃ μ', View.convert true src dst b dyn z v μ = (.error .check, μ')) := by
  unfold View.convert
  have hg : GivesDims dst b (listIter Lv.val v.dims) μ v.dims := by
    refine ⟨.inl (listIter_shape _ _), fun k d hk μ' _ => ?_⟩
    have hkl : k < v.dims.length := (List.getElem?_eq_some_iff.mp hk).1
    rw [listIter_elem _ _ k hkl]
    have : v.dims[k] = d := by simpa [hkl] using hk
    rw [this]
    rfl
  by_cases hs : src = dst
  · subst hs
    rw [if_pos rfl]
    exact ⟨fun _ => ⟨μ, rfl, fun _ _ => rfl⟩, fun h => absurd hv h⟩
  · rw [if_neg hs]
    exact ⟨fun h => C106_dims dst b v.cp dyn z hz _ _ μ hg h, fun h => C106_misfit dst b v.cp dyn z hz _ _ μ hg h⟩

/-- C106. Without checks, if there are as many dims as axes, the dims that are in the type win over the ones that are given. -/
theorem C106_unchecked (ts : Option (List AxisType)) (b cp : Int) (dyn : Bool) (z : List Int) (hz : ∀ i ∈ z, i = 0) (s : Iter (Act Dim) (Lv Dim)) (ds : List Dim) (μ : Mem Dim)
    (h : GivesDims ts b s μ ds) (hr : ∀ l, ts = some l → l.length = ds.length) :
    ∃ (ds' : List Dim) (μ' : Mem Dim), View.ofDims false ts b dyn z s cp μ = (.ok ⟨ds', cp⟩, μ') ∧ FitsType ts ds' ∧ ds'.length = ds.length ∧
      ∀ (k : Nat) (d d' : Dim), ds[k]? = some d → ds'[k]? = some d' →
        ((∀ l t, ts = some l → l[k]? = some t → t.len = none) → d'.len = d.len) ∧ ((∀ l t, ts = some l → l[k]? = some t → t.step = none) → d'.step = d.step) := by
  have := ofDims_run false ts b cp dyn z hz s ds μ h hr
  rw [if_pos (.inl rfl)] at this
  obtain ⟨μ', h1, _⟩ := this
  refine ⟨_, μ', h1, ?_, by simp, ?_⟩
  · rintro l rfl
    refine ⟨by simp [hr l rfl], fun k t d hk hd => ?_⟩
    have hkl : k < ds.length := by simpa using (List.getElem?_eq_some_iff.mp hd).1
    simp only [List.getElem?_map, List.getElem?_range hkl, Option.map_some, Option.some.injEq, Option.getD_some] at hd
    have ht : l.getD k ⟨none, none⟩ = t := by simp [List.getD, hk]
    rw [ht] at hd
    subst hd
    constructor
    · intro n hn; simp [blend, hn]
    · intro n hn; simp [blend, hn]
  · intro k d d' hd hd'
    have hkl : k < ds.length := (List.getElem?_eq_some_iff.mp hd).1
    simp only [List.getElem?_map, List.getElem?_range hkl, Option.map_some, Option.some.injEq] at hd'
    have hdk : ds.getD k ⟨0, 0⟩ = d := by simp [List.getD, hd]
    rw [hdk] at hd'
    subst hd'
    cases ts with
    | none => exact ⟨fun _ => by simp [blend], fun _ => by simp [blend]⟩
    | some l =>
      have hl := hr l rfl
      have hlk : l[k]? = some (l.getD k ⟨none, none⟩) := by simp [hl, hkl]
      simp only [Option.getD_some]
      constructor
      · intro h
        show ((l.getD k ⟨none, none⟩).len).getD d.len = d.len
        rw [h l _ rfl hlk]; rfl
      · intro h
        show ((l.getD k ⟨none, none⟩).step).getD d.step = d.step
        rw [h l _ rfl hlk]; rfl

/-- C106. And if the rank isn't in the type and there's no end to the dims. -/
theorem C106_unbounded (b cp : Int) (dyn : Bool) (z : List Int) (s : Iter (Act Dim) (Lv Dim)) (μ : Mem Dim) (h : HasShape s [none]) :
    View.ofDims true none b dyn z s cp μ = (.error .check, μ) := by
  unfold View.ofDims
  have : dimsCount true none s.size = .error .check := by rw [size_unbounded s h]; decide
  rw [act_bind, this]
  rfl

/-! ### Cases -/

/-- Dims in memory. -/
def dimsMem : Mem Dim := fun p => if p = 10 then some ⟨3, 2⟩ else if p = 11 then some ⟨2, 1⟩ else none

/-- `iter(dimv)` for dims at `p`. -/
def dimsAt (n p : Int) : Iter (Act Dim) (Lv Dim) := .cell [⟨n, 1⟩] p fun q => pure (.ref q)

/-- The result without the memory. -/
def made? (r : Except Fault View × Mem Dim) : Except Fault View := r.1

/-- A list of two dims fits in a view of static rank 2, and it fits in one of any rank. -/
example : GivesDims (some [⟨none, none⟩, ⟨none, none⟩]) 0 (dimsAt 2 10) dimsMem [⟨3, 2⟩, ⟨2, 1⟩] ∧ FitsType (some [⟨none, none⟩, ⟨none, none⟩]) [⟨3, 2⟩, ⟨2, 1⟩] ∧ FitsType none [⟨3, 2⟩, ⟨2, 1⟩] := by
  refine ⟨⟨.inl (show HasShape (View.refs ⟨[⟨(2 : Nat), 1⟩], 10⟩) [some 2] from refs_vector 10 2), ?_⟩, ?_, by intro l hl; simp at hl⟩
  · intro k d hk μ' hμ
    have h10 : μ' 10 = some ⟨3, 2⟩ := by rw [hμ 10 (by simp)]; rfl
    have h11 : μ' 11 = some ⟨2, 1⟩ := by rw [hμ 11 (by simp)]; rfl
    have hk2 : k < 2 := by simpa using (List.getElem?_eq_some_iff.mp hk).1
    unfold Reads
    rw [act_bind_ok (show elem (dimsAt 2 10) [(k : Int)] μ' = _ from refs_at 10 2 k μ')]
    rcases k with _ | _ | k
    · simp at hk; subst hk
      exact read_some h10
    · simp at hk; subst hk
      exact read_some h11
    · omega
  · intro l hl
    simp only [Option.some.injEq] at hl
    subst hl
    refine ⟨rfl, fun k t d hk _ => ?_⟩
    have : t = ⟨none, none⟩ := by
      rcases k with _ | _ | k
      · simpa using hk.symm
      · simpa using hk.symm
      · simp at hk
    subst this
    exact ⟨by simp, by simp⟩

/-- The dims of a column of an array don't fit in the type of a pointer with step 1. -/
example : FitsType (some [⟨none, none⟩]) [⟨3, 2⟩] ∧ ¬ FitsType (some [⟨none, some 1⟩]) [⟨3, 2⟩] ∧ FitsType (some [⟨none, some 1⟩]) [⟨3, 1⟩] := by
  refine ⟨?_, ?_, ?_⟩
  · intro l hl
    simp only [Option.some.injEq] at hl
    subst hl
    refine ⟨rfl, fun k t d hk _ => ?_⟩
    rcases k with _ | k
    · simp at hk; subst hk; exact ⟨by simp, by simp⟩
    · simp at hk
  · intro h
    have := (h _ rfl).2 0 _ _ rfl rfl
    simpa using this.2 1 rfl
  · intro l hl
    simp only [Option.some.injEq] at hl
    subst hl
    refine ⟨rfl, fun k t d hk hd => ?_⟩
    rcases k with _ | k
    · simp at hk hd; subst hk; subst hd; exact ⟨by simp, by simp⟩
    · simp at hk

/-- What happens with them. -/
example : made? (View.convert true (some [⟨none, none⟩]) (some [⟨none, some 1⟩]) 0 false [] ⟨[⟨3, 2⟩], 7⟩ dimsMem) = .error .check ∧
    made? (View.convert true (some [⟨none, none⟩]) (some [⟨none, some 1⟩]) 0 true [] ⟨[⟨3, 1⟩], 7⟩ dimsMem) = .ok ⟨[⟨3, 1⟩], 7⟩ ∧
    made? (View.convert true (some [⟨none, some 1⟩]) none 0 true [] ⟨[⟨3, 1⟩], 7⟩ dimsMem) = .ok ⟨[⟨3, 1⟩], 7⟩ ∧
    made? (View.convert true none (some [⟨none, none⟩]) 0 true [] ⟨[⟨3, 2⟩, ⟨2, 1⟩], 7⟩ dimsMem) = .error .check ∧
    made? (View.ofDims true (some [⟨none, none⟩, ⟨none, none⟩]) 0 false [] (dimsAt 2 10) 7 dimsMem) = .ok ⟨[⟨3, 2⟩, ⟨2, 1⟩], 7⟩ := by
  refine ⟨?_, ?_, ?_, ?_, ?_⟩ <;> decide +kernel

/-- C106 doesn't go beyond rank 1: dims in a matrix with one column are taken as if they were a list, although in one with one row they aren't. -/
theorem C106_rank_negation :
    ∃ s s' : Iter (Act Dim) (Lv Dim), HasShape s [some 2, some 1] ∧ HasShape s' [some 1, some 2] ∧
      made? (View.ofDims true none 0 true [] s 7 dimsMem) = .ok ⟨[⟨3, 2⟩, ⟨2, 1⟩], 7⟩ ∧ made? (View.ofDims true none 0 true [] s' 7 dimsMem) = .error .check := by
  refine ⟨View.refs ⟨[⟨2, 1⟩, ⟨1, 1⟩], 10⟩, View.refs ⟨[⟨1, 1⟩, ⟨2, 1⟩], 10⟩, refs_shape (by simp [Shaped, DimLen]), refs_shape (by simp [Shaped, DimLen]), ?_, ?_⟩ <;> decide +kernel

/-- C106 needs the checks: without them a view with step 2 converts to another view, that has other elements. -/
theorem C106_unchecked_negation :
    ∃ v w : View, made? (View.convert false (some [⟨none, none⟩]) (some [⟨none, some 1⟩]) 0 false [] v dimsMem) = .ok w ∧ FitsType (some [⟨none, none⟩]) v.dims ∧ address v [1] ≠ address w [1] := by
  refine ⟨⟨[⟨3, 2⟩], 7⟩, ⟨[⟨3, 1⟩], 7⟩, by decide +kernel, ?_, by decide⟩
  intro l hl
  simp only [Option.some.injEq] at hl
  subst hl
  refine ⟨rfl, fun k t d hk _ => ?_⟩
  rcases k with _ | k
  · simp at hk; subst hk; exact ⟨by simp, by simp⟩
  · simp at hk

end Ra.Props
