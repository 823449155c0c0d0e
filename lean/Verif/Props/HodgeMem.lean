import Verif.Model.HodgeMem
import Verif.Props.Hodge
import Verif.Props.Frame
import Verif.Props.Assign
/-!
# Wedge product and Hodge star in memory: C93
-/
set_option linter.unusedSectionVars false

namespace Ra.Spec

/-- The vector `v` has elements `xs` in the memory `μ`. -/
def VecOf {R : Type} (μ : Mem R) (v : View) (xs : List R) : Prop :=
  Shaped v [some xs.length] ∧ ∀ (k : Nat), k < xs.length → μ (address v [(k : Int)]) = xs[k]?

/-- No element of the vector `a`, of length `n`, is one of the vector `b`, of length `m`. -/
def VecApart (a : View) (n : Nat) (b : View) (m : Nat) : Prop := ∀ p, InView a [n] p → ¬ InView b [m] p

/-- `r` are the components of the Hodge star of the `O`-vector with components `a`: the product of any other `O`-vector `c` by it is the dot product of `c` and `a`, by the unit. -/
def IsStar {R : Type} [CommRing R] (D O : Nat) (a r : List R) : Prop :=
  r.length = D.choose (D - O) ∧ ∃ Ca Cb, choose D O = some Ca ∧ choose D (D - O) = some Cb ∧ ∀ c : List R, c.length = D.choose O →
    form Ca c * form Cb r = (∑ i ∈ Finset.range (D.choose O), c.getD i 0 * a.getD i 0) • mono R (List.range D)

/-- `r` are the components of the exterior product of the multivectors with components `a` and `b`. -/
def IsWedge {R : Type} [CommRing R] (D Oa Ob : Nat) (a b r : List R) : Prop :=
  r.length = D.choose (Oa + Ob) ∧ ∃ Ca Cb Cr, choose D Oa = some Ca ∧ choose D Ob = some Cb ∧ choose D (Oa + Ob) = some Cr ∧ form Cr r = form Ca a * form Cb b

end Ra.Spec

namespace Ra.Props
open Spec

variable {R : Type} [CommRing R]

theorem valid_nat {n : Nat} {k : Nat} (h : k < n) : Valid [n] [(k : Int)] := by simp [Valid, h]

theorem inRange_nat {n : Nat} {k : Nat} (h : k < n) : InRange ([n].map some) [(k : Int)] := by
  refine ⟨by simp, fun j m hj => ?_⟩
  cases j with
  | zero => simp at hj; subst hj; simp [h]
  | succ j => simp at hj

theorem vec_inView {v : View} {n k : Nat} (h : k < n) : InView v [n] (address v [(k : Int)]) := ⟨_, valid_nat h, rfl⟩

theorem vec_size {v : View} {n : Nat} (h : Shaped v [some n]) : dimvSize v.dims = n := by
  simpa [size] using dimvSize_eq (s := [n]) h

theorem vec_read {μ : Mem R} {v : View} {xs : List R} (h : VecOf μ v xs) {k : Nat} {x : R} (hx : xs[k]? = some x) :
    v.elemAt Act.read [(k : Int)] μ = (.ok x, μ) := by
  have hk := (List.getElem?_eq_some_iff.mp hx).1
  rw [(elemAt_eq v [xs.length] h.1 _ _ rfl).1 (inRange_nat hk), Act.read, h.2 k hk, hx]

theorem vec_write {μ : Mem R} {v : View} {xs : List R} (h : VecOf μ v xs) (hd : Distinct v [xs.length]) {k : Nat} (hk : k < xs.length) (x : R) :
    v.elemAt (fun p => Act.write p x) [(k : Int)] μ = (.ok (), μ.upd (address v [(k : Int)]) x) ∧ VecOf (μ.upd (address v [(k : Int)]) x) v (xs.set k x) := by
  refine ⟨?_, by simpa using h.1, fun j hj => ?_⟩
  · rw [(elemAt_eq v [xs.length] h.1 _ _ rfl).1 (inRange_nat hk), Act.write, h.2 k hk, List.getElem?_eq_getElem hk]
  · simp only [List.length_set] at hj
    rw [Mem.upd, List.getElem?_set]
    split
    · next he =>
      have := hd _ _ (valid_nat hj) (valid_nat hk) he
      simp at this
      subst this
      simp
    · next he =>
      rw [if_neg (by rintro rfl; exact he rfl)]
      exact h.2 j hj

theorem hodgeAux_place (D O : Nat) (Lex Cb Cr : List (List Nat)) (a : List R) (i : Nat) (C : List Nat) (Ca : List (List Nat)) (b : List R) :
    hodgeAux D O Lex Cb Cr a i (C :: Ca) b = match hodgePlace D O Lex Cb Cr C with
      | none => none
      | some (w, s) => (a[i]?).bind fun ai => hodgeAux D O Lex Cb Cr a (i + 1) Ca (b.set w ((s : R) * ai)) := by
  rw [hodgeAux, hodgePlace]
  simp only [Option.bind_eq_bind]
  split
  · rfl
  cases Lex[(findWhere C Lex).toNat]? with
  | none => rfl
  | some S =>
    simp only [Option.bind_some]
    split
    · cases Cb[(findWhere (complement S D) Cb).toNat]? with
      | none => rfl
      | some B =>
        simp only [Option.bind_some]
        split
        · rfl
        · cases a[i]? <;> rfl
    · rfl

theorem hodgePlace_lt {D O : Nat} {Lex Cb Cr : List (List Nat)} {C : List Nat} {w : Nat} {s : Int} (h : hodgePlace D O Lex Cb Cr C = some (w, s)) : w < Cb.length := by
  rw [hodgePlace] at h
  simp only [Option.bind_eq_bind] at h
  split at h
  · simp at h
  cases hS : Lex[(findWhere C Lex).toNat]? with
  | none => simp [hS] at h
  | some S =>
    rw [hS] at h
    simp only [Option.bind_some] at h
    split at h
    · cases hB : Cb[(findWhere (complement S D) Cb).toNat]? with
      | none => simp [hB] at h
      | some B =>
        rw [hB] at h
        simp only [Option.bind_some] at h
        split at h
        · simp only [Option.some.injEq, Prod.mk.injEq] at h
          rw [← h.1]
          exact (List.getElem?_eq_some_iff.mp hB).1
        · simp at h
    · simp at h

/-- The loop in memory is the loop on values as long as `rd` gives the elements that `a` has, for some invariant `Inv`. -/
theorem hodgeLoop_run (k : ElemRef) (hk : k ≠ .other) {D O : Nat} {Lex Cb Cr : List (List Nat)} {a : List R} {rd : Nat → Act R R} {b : View} (Inv : Nat → Mem R → Prop)
    (hrd : ∀ i μ x, Inv i μ → a[i]? = some x → rd i μ = (.ok x, μ)) (hd : Distinct b [Cb.length]) :
    ∀ (Ca : List (List Nat)) (i : Nat) (ys r : List R) (μ : Mem R), ys.length = Cb.length → VecOf μ b ys → Inv i μ →
      (∀ j μ C w s x, Ca[j]? = some C → hodgePlace D O Lex Cb Cr C = some (w, s) → Inv (i + j) μ → Inv (i + j + 1) (μ.upd (address b [(w : Int)]) x)) →
      hodgeAux D O Lex Cb Cr a i Ca ys = some r →
      ∃ μ', hodgeLoop k D O Lex Cb Cr rd b i Ca μ = (.ok (), μ') ∧ VecOf μ' b r ∧ r.length = Cb.length ∧ SameOutside (InView b [Cb.length]) μ μ' := by
  intro Ca
  induction Ca with
  | nil =>
    intro i ys r μ hl hv _ _ hr
    simp only [hodgeAux, Option.some.injEq] at hr
    subst hr
    exact ⟨μ, rfl, hv, hl, fun _ _ => rfl⟩
  | cons C Ca ih =>
    intro i ys r μ hl hv hi hst hr
    rw [hodgeAux_place] at hr
    cases hp : hodgePlace D O Lex Cb Cr C with
    | none => simp [hp] at hr
    | some ws =>
      obtain ⟨w, s⟩ := ws
      simp only [hp] at hr
      cases hx : a[i]? with
      | none => simp [hx] at hr
      | some x =>
        simp only [hx, Option.bind_some] at hr
        have hw := hodgePlace_lt hp
        obtain ⟨h1, h2⟩ := vec_write hv (hl ▸ hd) (hl ▸ hw) ((s : R) * x)
        have hi' : Inv (i + 1) (μ.upd (address b [(w : Int)]) ((s : R) * x)) := hst 0 μ C w s _ rfl hp hi
        obtain ⟨μ', e1, e2, e3, e4⟩ := ih (i + 1) _ r _ (by simpa using hl) h2 hi' (fun j μ C w s x hj hp' hv' => by
          have := hst (j + 1) μ C w s x (by simpa using hj) hp' (by rw [show i + (j + 1) = i + 1 + j by omega]; exact hv')
          rw [show i + (j + 1) + 1 = i + 1 + j + 1 by omega] at this
          exact this) hr
        refine ⟨μ', ?_, e2, e3, fun p hn => ?_⟩
        · rw [hodgeLoop, hp]
          have hs : castSign s k μ = (.ok (s : R), μ) := by
            cases k with
            | other => exact absurd rfl hk
            | const => rfl
            | int => rfl
          show (castSign s k >>= _) μ = _
          rw [act_bind_ok hs, act_bind_ok (hrd i μ x hi hx), act_bind_ok h1]
          exact e1
        · rw [e4 p hn, Mem.upd, if_neg]
          rintro rfl
          exact hn (vec_inView hw)


/-- What `hodgex` gives is the Hodge star. -/
theorem hodgex_star {D O : Nat} (hO : O ≤ D) {a b : List R} (ha : a.length = D.choose O) (hb : b.length = D.choose (D - O)) :
    ∃ r, hodgex D O a b = some r ∧ IsStar D O a r := by
  obtain ⟨Ca, Cb, r, hCa, hCb, hr, hrl, -⟩ := C48_hodgex D O hO a b ha hb
  obtain ⟨r', hr', hh⟩ := C48_hodge D O hO a b ha hb
  rw [hr] at hr'
  simp only [Option.some.injEq] at hr'
  subst hr'
  refine ⟨r, hr, hrl, Ca, Cb, hCa, hCb, fun c hc => ?_⟩
  obtain ⟨Ca', Cb', r', hCa', hCb', hr', h⟩ := C48_star D O hO a b c ha hb hc
  rw [hCa] at hCa'
  rw [hCb] at hCb'
  rw [hh] at hr'
  simp only [Option.some.injEq] at hCa' hCb' hr'
  subst hCa' hCb' hr'
  exact h

theorem hodgexFrom_run (k : ElemRef) (hk : k ≠ .other) {D O : Nat} (hO : O ≤ D) {a ys r : List R} {rd : Nat → Act R R} {b : View} (Inv : Nat → Mem R → Prop)
    (hrd : ∀ i μ x, Inv i μ → a[i]? = some x → rd i μ = (.ok x, μ)) (ha : a.length = D.choose O) (hy : ys.length = D.choose (D - O)) (hd : Distinct b [ys.length])
    {μ : Mem R} (hv : VecOf μ b ys) (hi : Inv 0 μ)
    (hst : ∀ j μ C Ca Cb Cr Lex w s x, choose D O = some Ca → choose D (D - O) = some Cb → choose D (O + (D - O)) = some Cr → combs (mpIota D 0) O = some Lex →
      Ca[j]? = some C → hodgePlace D O Lex Cb Cr C = some (w, s) → w < ys.length → Inv j μ → Inv (j + 1) (μ.upd (address b [(w : Int)]) x))
    (hr : hodgex D O a ys = some r) :
    ∃ μ', hodgexFrom k D O a.length rd b μ = (.ok (), μ') ∧ VecOf μ' b r ∧ SameOutside (InView b [ys.length]) μ μ' := by
  rw [hodgex, if_pos hO] at hr
  simp only [Option.bind_eq_bind, Option.bind_eq_some_iff] at hr
  obtain ⟨Ca, hCa, Cb, hCb, Cr, hCr, Lex, hLex, hr⟩ := hr
  rw [if_pos ⟨by rw [ha, C44_binom], by rw [hy, C44_binom]⟩] at hr
  have hlb : Cb.length = ys.length := by
    obtain ⟨C, hC, -, hl⟩ := C45_choose D (D - O) (by omega)
    rw [hCb] at hC
    simp only [Option.some.injEq] at hC
    rw [hC, hl, hy]
  obtain ⟨μ', e1, e2, -, e4⟩ := hodgeLoop_run k hk Inv hrd (by rw [hlb]; exact hd) Ca 0 ys r μ hlb.symm hv hi (fun j μ C w s x hj hp hI => by
    rw [Nat.zero_add] at hI ⊢
    exact hst j μ C Ca Cb Cr Lex w s x hCa hCb hCr hLex hj hp (hlb ▸ hodgePlace_lt hp) hI) hr
  refine ⟨μ', ?_, e2, hlb ▸ e4⟩
  rw [hodgexFrom, hCa, hCb, hCr, hLex]
  simp only
  rw [if_pos ⟨hO, by rw [ha, C44_binom], by rw [vec_size hv.1, hy, C44_binom]⟩]
  exact e1

theorem vec_upd {μ : Mem R} {a b : View} {xs : List R} {m w : Nat} (ha : VecOf μ a xs) (hap : VecApart a xs.length b m) (hw : w < m) (x : R) :
    VecOf (μ.upd (address b [(w : Int)]) x) a xs := by
  refine ⟨ha.1, fun k hk => ?_⟩
  rw [Mem.upd, if_neg, ha.2 k hk]
  intro he
  exact hap _ (vec_inView hk) (he ▸ vec_inView hw)

/-- C93. `hodgex(a, b)` writes the Hodge star of `a` in `b` and nothing else changes, if `a` and `b` are apart, and `a` is an array, or a view of constant elements, or of `int`s. -/
theorem C93_hodgex_partial (k : ElemRef) (hk : k ≠ .other) (D O : Nat) (hO : O ≤ D) (a b : View) (xs ys : List R) (μ : Mem R)
    (hx : xs.length = D.choose O) (hy : ys.length = D.choose (D - O)) (ha : VecOf μ a xs) (hb : VecOf μ b ys)
    (hd : Distinct b [ys.length]) (hap : VecApart a xs.length b ys.length) :
    ∃ r μ', hodgexMem k D O a b μ = (.ok (), μ') ∧ IsStar D O xs r ∧ VecOf μ' b r ∧ VecOf μ' a xs ∧ SameOutside (InView b [ys.length]) μ μ' := by
  obtain ⟨r, hr, hs⟩ := hodgex_star hO hx hy
  obtain ⟨μ', e1, e2, e3⟩ := hodgexFrom_run k hk hO (rd := fun i => a.elemAt Act.read [(i : Int)]) (fun _ μ => VecOf μ a xs)
    (fun i μ x hI hx => vec_read hI hx) hx hy hd hb ha (fun j μ C Ca Cb Cr Lex w s x _ _ _ _ _ _ hw hI => vec_upd hI hap hw x) hr
  refine ⟨r, μ', ?_, hs, e2, ⟨ha.1, fun k hk => ?_⟩, e3⟩
  · rw [hodgexMem, vec_size ha.1]
    exact e1
  · rw [e3 _ (hap _ (vec_inView hk)), ha.2 k hk]

theorem readArr_run {μ : Mem R} {a : View} {xs : List R} (h : VecOf μ a xs) : readArr a xs.length μ = (.ok xs, μ) := by
  have key : ∀ (n i : Nat), i + n = xs.length → ((List.range' i n).mapM (fun (i : Nat) => a.elemAt Act.read [(i : Int)]) : Act R (List R)) μ = (.ok (xs.drop i), μ) := by
    intro n
    induction n with
    | zero =>
      intro i hi
      rw [List.drop_eq_nil_of_le (by omega)]
      rfl
    | succ n ih =>
      intro i hi
      rw [List.range'_succ, List.mapM_cons, act_bind_ok (vec_read h (List.getElem?_eq_getElem (show i < xs.length by omega))), act_bind_ok (ih (i + 1) (by omega)),
        List.drop_eq_getElem_cons (show i < xs.length by omega)]
      rfl
  have := key xs.length 0 (by omega)
  rw [readArr, List.range_eq_range']
  simpa using this

/-- C93. In place in an array, when `hodge` isn't just a copy. -/
theorem C93_array (D O : Nat) (hO : O ≤ D) (a : View) (xs : List R) (μ : Mem R) (hx : xs.length = D.choose O) (ha : VecOf μ a xs) (hd : Distinct a [xs.length]) :
    ∃ r μ', hodgeArray D O a μ = (.ok (), μ') ∧ IsStar D O xs r ∧ VecOf μ' a r ∧ SameOutside (InView a [xs.length]) μ μ' := by
  have hy : xs.length = D.choose (D - O) := by rw [hx, Nat.choose_symm hO]
  obtain ⟨r, hr, hs⟩ := hodgex_star hO hx hy
  obtain ⟨μ', e1, e2, e3⟩ := hodgexFrom_run .const (by simp) hO (rd := fun i => match xs[i]? with
    | some x => pure x
    | none => fault .check) (fun _ μ => True)
    (fun i μ x _ hx => by simp only [hx]; rfl) hx hy hd ha trivial (fun j μ C Ca Cb Cr Lex w s x _ _ _ _ _ _ hw hI => trivial) hr
  refine ⟨r, μ', ?_, hs, e2, e3⟩
  rw [hodgeArray, vec_size ha.1, Int.toNat_natCast, act_bind_ok (readArr_run ha)]
  exact e1

theorem writeVec_run {r : View} : ∀ (zs : List R) (k : Nat) (ys : List R) (μ : Mem R), VecOf μ r ys → Distinct r [ys.length] → k + zs.length = ys.length →
    ∃ μ', writeVec r k zs μ = (.ok (), μ') ∧ VecOf μ' r (ys.take k ++ zs) ∧ SameOutside (InView r [ys.length]) μ μ' := by
  intro zs
  induction zs with
  | nil =>
    intro k ys μ h _ hl
    refine ⟨μ, rfl, ?_, fun _ _ => rfl⟩
    rw [List.append_nil, List.take_of_length_le (by simpa using hl.ge)]
    exact h
  | cons z zs ih =>
    intro k ys μ h hd hl
    have hk : k < ys.length := by simp at hl; omega
    obtain ⟨h1, h2⟩ := vec_write h hd hk z
    obtain ⟨μ', e1, e2, e3⟩ := ih (k + 1) (ys.set k z) _ h2 (by simpa using hd) (by simp at hl ⊢; omega)
    refine ⟨μ', ?_, ?_, fun p hn => ?_⟩
    · rw [writeVec, act_bind_ok h1]
      exact e1
    · rw [List.take_add_one, List.take_set_of_le (Nat.le_refl k), List.getElem?_set_self hk] at e2
      simpa using e2
    · rw [e3 p (by simpa using hn), Mem.upd, if_neg]
      rintro rfl
      exact hn (vec_inView hk)

/-- C93. `wedge(a, b, r)` writes the exterior product of `a` and `b` in `r`, and nothing else changes, even if `r` overlaps `a` or `b`. -/
theorem C93_wedge (D Oa Ob : Nat) (h : Oa + Ob ≤ D) (a b r : View) (xs ys zs : List R) (μ : Mem R)
    (hx : xs.length = D.choose Oa) (hy : ys.length = D.choose Ob) (hz : zs.length = D.choose (Oa + Ob)) (ha : VecOf μ a xs) (hb : VecOf μ b ys) (hr : VecOf μ r zs)
    (hd : Distinct r [zs.length]) :
    ∃ z μ', wedgeMem D Oa Ob a b r μ = (.ok (), μ') ∧ IsWedge D Oa Ob xs ys z ∧ VecOf μ' r z ∧ SameOutside (InView r [zs.length]) μ μ' := by
  obtain ⟨Ca, Cb, Cr, z, hCa, hCb, hCr, hw, hzl, hf⟩ := C47_wedge D Oa Ob h xs ys hx hy
  obtain ⟨μ', e1, e2, e3⟩ := writeVec_run z 0 zs μ hr hd (by omega)
  refine ⟨z, μ', ?_, ⟨hzl, Ca, Cb, Cr, hCa, hCb, hCr, hf⟩, by simpa using e2, e3⟩
  rw [wedgeMem, C44_binom, C44_binom, ← hx, ← hy, act_bind_ok (readArr_run ha), act_bind_ok (readArr_run hb), hw]
  simp only
  rw [if_pos (by rw [vec_size hr.1, hz, C44_binom])]
  exact e1

/-- C93. The Hodge star is unique. -/
theorem C93_star_unique (D O : Nat) (hO : O ≤ D) (a r r' : List R) (h : IsStar D O a r) (h' : IsStar D O a r') : r = r' := by
  obtain ⟨hl, Ca, Cb, hCa, hCb, hf⟩ := h
  obtain ⟨hl', Ca', Cb', hCa', hCb', hf'⟩ := h'
  rw [hCa] at hCa'
  rw [hCb] at hCb'
  simp only [Option.some.injEq] at hCa' hCb'
  subst hCa' hCb'
  obtain ⟨X, hX, hXp, hXs⟩ := choose_full D
  have hXn : X.Nodup := hXp.nodup_iff.mpr List.nodup_range
  -- the product by any c
  have key (c : List R) (hc : c.length = D.choose O) (r : List R) (hl : r.length = D.choose (D - O)) : IsBasis D O Ca ∧ IsBasis D (D - O) Cb ∧
      form Ca c * form Cb r = form [X] [∑ i ∈ Finset.range Ca.length, ∑ j ∈ Finset.range Cb.length, (permsign (Ca.getD i [] ++ Cb.getD j []) X : R) * c.getD i 0 * r.getD j 0] := by
    obtain ⟨Ca1, Cb1, Cr1, z, h1, h2, h3, hba, hbb, -, -, -, hw, hz⟩ := wedge_components D O (D - O) (by omega) c r hc hl
    obtain ⟨Ca2, Cb2, Cr2, z', g1, g2, g3, hw', -, hf'⟩ := C47_wedge D O (D - O) (by omega) c r hc hl
    rw [hw] at hw'
    rw [hCa] at h1 g1
    rw [hCb] at h2 g2
    rw [Nat.add_sub_cancel' hO, hX] at h3 g3
    simp only [Option.some.injEq] at hw' h1 g1 h2 g2 h3 g3
    subst h1 g1 h2 g2 h3 g3 hw'
    refine ⟨hba, hbb, ?_⟩
    rw [← hf', hz]
    rfl
  have eq (c : List R) (hc : c.length = D.choose O) : ∑ i ∈ Finset.range Ca.length, ∑ j ∈ Finset.range Cb.length, (permsign (Ca.getD i [] ++ Cb.getD j []) X : R) * c.getD i 0 * r.getD j 0 =
      ∑ i ∈ Finset.range Ca.length, ∑ j ∈ Finset.range Cb.length, (permsign (Ca.getD i [] ++ Cb.getD j []) X : R) * c.getD i 0 * r'.getD j 0 := by
    obtain ⟨C, hC, hu⟩ := C47_components_unique (R := R) D D (le_refl D)
    rw [hX] at hC
    simp only [Option.some.injEq] at hC
    subst hC
    have e := hu _ _ (by simp) (by simp) (((key c hc r hl).2.2.symm.trans ((hf c hc).trans (hf' c hc).symm)).trans (key c hc r' hl').2.2)
    simpa using e
  have hba := (key (List.replicate (D.choose O) 0) (by simp) r hl).1
  have hbb := (key (List.replicate (D.choose O) 0) (by simp) r hl).2.1
  have hla : Ca.length = D.choose O := by
    obtain ⟨C, hC, -, hl⟩ := C45_choose D O hO
    rw [hCa] at hC
    simp only [Option.some.injEq] at hC
    rw [hC, hl]
  have hlb : Cb.length = D.choose (D - O) := by
    obtain ⟨C, hC, -, hl⟩ := C45_choose D (D - O) (by omega)
    rw [hCb] at hC
    simp only [Option.some.injEq] at hC
    rw [hC, hl]
  apply List.ext_getElem (by omega)
  intro k hk hk'
  have hBk : Cb[k]? = some (Cb.getD k []) := getElem?_getD (by omega)
  have hB := (isBasis_iff.mp hbb).1 _ (List.mem_of_getElem? hBk)
  have hcl := length_complement hB.1
  obtain ⟨i, A, hi, hp, hu⟩ := (isBasis_iff.mp hba).2 (complement (Cb.getD k []) D) complement_below (by omega)
  have hcomp : Compl D A (Cb.getD k []) := List.perm_append_comm.trans ((compl_iff hB.1).mpr hp)
  have hA := (isBasis_iff.mp hba).1 _ (List.mem_of_getElem? hi)
  have hilt := lt_of_getElem? hi
  have e := eq (List.ofFn fun j : Fin (D.choose O) => if (j : Nat) = i then (1 : R) else 0) (by simp)
  have one (r : List R) : ∑ i' ∈ Finset.range Ca.length, ∑ j ∈ Finset.range Cb.length, (permsign (Ca.getD i' [] ++ Cb.getD j []) X : R) *
      (List.ofFn fun j : Fin (D.choose O) => if (j : Nat) = i then (1 : R) else 0).getD i' 0 * r.getD j 0 = (permsign (A ++ Cb.getD k []) X : R) * r.getD k 0 := by
    rw [Finset.sum_eq_single i, Finset.sum_eq_single k]
    · rw [getD_of_getElem? hi]
      simp [List.getD, show i < D.choose O by omega]
    · intro j hj hjk
      have hj : j < Cb.length := by simpa using hj
      have hBj : Cb[j]? = some (Cb.getD j []) := getElem?_getD hj
      have : permsign (Ca.getD i [] ++ Cb.getD j []) X = 0 := by
        rw [C46_zero]
        intro hc
        rw [getD_of_getElem? hi] at hc
        obtain ⟨k', B', -, -, hu'⟩ := (isBasis_iff.mp hbb).2 (complement A D) complement_below (by have := length_complement hA.1; omega)
        have e1 := hu' j _ hBj ((compl_iff hA.1).mp (hc.trans hXp))
        have e2 := hu' k _ hBk ((compl_iff hA.1).mp hcomp)
        omega
      rw [this]
      simp
    · intro hn
      exact absurd (by simpa using (by omega : k < Cb.length)) hn
    · intro i' _ hne
      apply Finset.sum_eq_zero
      intro j' _
      by_cases hlt : i' < D.choose O <;> simp [List.getD, hlt, hne]
    · intro hn
      exact absurd (by simpa using hilt) hn
  rw [one, one] at e
  have sq := congrArg (Int.cast : Int → R) (permsign_sq hXn (hcomp.trans hXp.symm))
  push_cast at sq
  have e2 : r.getD k 0 = r'.getD k 0 := by
    calc r.getD k 0 = ((permsign (A ++ Cb.getD k []) X : R) * (permsign (A ++ Cb.getD k []) X : R)) * r.getD k 0 := by rw [sq, one_mul]
      _ = (permsign (A ++ Cb.getD k []) X : R) * ((permsign (A ++ Cb.getD k []) X : R) * r.getD k 0) := by ring
      _ = ((permsign (A ++ Cb.getD k []) X : R) * (permsign (A ++ Cb.getD k []) X : R)) * r'.getD k 0 := by rw [e]; ring
      _ = r'.getD k 0 := by rw [sq, one_mul]
  simpa [List.getD, hk, hk'] using e2

/-! ## In place in a view -/

/-- The place and the sign for each component. -/
theorem hodgePlace_eq {D O : Nat} (hO : O ≤ D) {Ca Cb Lex : List (List Nat)} {X : List Nat} (ha : IsBasis D O Ca) (hb : IsBasis D (D - O) Cb)
    (hL : IsBasis D O Lex) (hXs : permsign X (List.range D) = 1) {i : Nat} {C : List Nat} (hC : Ca[i]? = some C) :
    ∃ w B, Cb[w]? = some B ∧ Compl D C B ∧ hodgePlace D O Lex Cb [X] C = some (w, permsign (C ++ B) (List.range D)) := by
  have hXp : X.Perm (List.range D) := by rw [← permsign_ne_zero, hXs]; decide
  have hXn : X.Nodup := hXp.nodup_iff.mpr List.nodup_range
  obtain ⟨hCb, hCl⟩ := (isBasis_iff.mp ha).1 C (List.mem_of_getElem? hC)
  obtain ⟨kl, S, hkl, hSp, hwl, -, -⟩ := basis_sum hL hCb hCl
  have hcompl : complement S D = complement C D := (complement_perm D hSp).symm
  have hcl := length_complement hCb
  obtain ⟨w, Bw, hw, hwp, hww, -, -⟩ := basis_sum hb (complement_below (C := C) (D := D)) (by omega)
  have hCB : Compl D C Bw := (compl_iff hCb).mpr hwp
  have hsX : findSign (C ++ Bw) [X] = permsign (C ++ Bw) (List.range D) := by
    have h1 := (C46_findcomb (C ++ Bw) [X] 0 X rfl (hCB.trans hXp.symm) (by
      intro k' A' hk' _
      have := lt_of_getElem? hk'
      simp at this
      omega)).2
    rw [h1, permsign_trans hCB hXn, permsign_symm hXn, hXs, mul_one]
  have hne : findSign (C ++ Bw) [X] ≠ 0 := by rw [hsX, permsign_ne_zero]; exact hCB
  refine ⟨w, Bw, hw, hCB, ?_⟩
  rw [hodgePlace]
  simp only [hwl]
  rw [if_neg (by omega)]
  simp only [Int.toNat_natCast, hkl, Option.bind_eq_bind, Option.bind_some, hcompl, hww]
  rw [if_pos ⟨by omega, by omega, by omega⟩]
  simp only [hw, Option.bind_some]
  rw [if_pos hne, hsX]

/-- The loop in place in a view always ends, and it preserves any invariant of its steps. -/
theorem hodgeLoop_view (k : ElemRef) (hk : k ≠ .other) {D O : Nat} {Lex Cb Cr : List (List Nat)} {a : View} (P : Nat → List R → Prop) (Ca : List (List Nat)) (n : Nat)
    (hn : Ca.length = n) (hb : Cb.length = n) (hd : Distinct a [n]) (hpl : ∀ (i : Nat) C, Ca[i]? = some C → ∃ w s, hodgePlace D O Lex Cb Cr C = some (w, s))
    (hst : ∀ i C w s (zs : List R) x, Ca[i]? = some C → hodgePlace D O Lex Cb Cr C = some (w, s) → zs.length = n → zs[i]? = some x → P i zs → P (i + 1) (zs.set w ((s : R) * x))) :
    ∀ (L : List (List Nat)) (i : Nat) (zs : List R) (μ : Mem R), i ≤ n → Ca.drop i = L → VecOf μ a zs → zs.length = n → P i zs →
      ∃ zs' μ', hodgeLoop k D O Lex Cb Cr (fun i => a.elemAt Act.read [(i : Int)]) a i L μ = (.ok (), μ') ∧ VecOf μ' a zs' ∧ zs'.length = n ∧ P n zs' ∧
        SameOutside (InView a [n]) μ μ' := by
  intro L
  induction L with
  | nil =>
    intro i zs μ hi hdr hv hl hP
    rw [List.drop_eq_nil_iff] at hdr
    have : i = n := by omega
    subst this
    exact ⟨zs, μ, rfl, hv, hl, hP, fun _ _ => rfl⟩
  | cons C L ih =>
    intro i zs μ _ hdr hv hl hP
    have hi : i < Ca.length := by
      by_contra hn
      rw [List.drop_eq_nil_of_le (by omega)] at hdr
      simp at hdr
    have hCi : Ca[i]? = some C := by
      have := List.head?_drop (l := Ca) (i := i)
      rw [hdr] at this
      simpa using this.symm
    have hd' : Ca.drop (i + 1) = L := by
      have := congrArg List.tail hdr
      simpa [List.tail_drop] using this
    obtain ⟨w, s, hp⟩ := hpl i C hCi
    have hw := hodgePlace_lt hp
    have hx : zs[i]? = some zs[i] := List.getElem?_eq_getElem (by omega)
    obtain ⟨h1, h2⟩ := vec_write hv (hl.symm ▸ hd) (show w < zs.length by omega) ((s : R) * zs[i])
    obtain ⟨zs', μ', e1, e2, e3, e4, e5⟩ := ih (i + 1) _ _ (by omega) hd' h2 (by simpa using hl) (hst i C w s zs _ hCi hp hl hx hP)
    refine ⟨zs', μ', ?_, e2, e3, e4, fun p hnp => ?_⟩
    · rw [hodgeLoop, hp]
      have hs : castSign s k μ = (.ok (s : R), μ) := by
        cases k with
        | other => exact absurd rfl hk
        | const => rfl
        | int => rfl
      show (castSign s k >>= _) μ = _
      rw [act_bind_ok hs, act_bind_ok (vec_read hv hx), act_bind_ok h1]
      exact e1
    · rw [e5 p hnp, Mem.upd, if_neg]
      rintro rfl
      exact hnp (vec_inView (by omega))

/-- The components at the same place in the two bases are complementary if `2*O` isn't `D`. -/
theorem same_place {D O : Nat} (hO : O ≤ D) (h2 : 2 * O ≠ D) {Ca Cb : List (List Nat)} (hCa : choose D O = some Ca) (hCb : choose D (D - O) = some Cb)
    {i : Nat} {A B : List Nat} (hA : Ca[i]? = some A) (hB : Cb[i]? = some B) : Compl D A B := by
  by_cases hD : D > 1
  · by_cases hlt : 2 * O < D
    · obtain ⟨Ca', Cb', h1, h2, hf⟩ := C45_choose_sign D (D - O) hD (by omega) (by omega)
      rw [Nat.sub_sub_self hO, hCa] at h1
      rw [hCb] at h2
      simp only [Option.some.injEq] at h1 h2
      subst h1 h2
      rw [List.forall₂_iff_get] at hf
      have hs := hf.2 i (lt_of_getElem? hA) (lt_of_getElem? hB)
      rw [List.get_eq_getElem, List.get_eq_getElem, (List.getElem?_eq_some_iff.mp hA).2, (List.getElem?_eq_some_iff.mp hB).2] at hs
      rw [Compl, ← permsign_ne_zero, hs]
      decide
    · obtain ⟨Cb', Ca', h1, h2, hf⟩ := C45_choose_sign D O hD hO (by omega)
      rw [hCb] at h1
      rw [hCa] at h2
      simp only [Option.some.injEq] at h1 h2
      subst h1 h2
      rw [List.forall₂_iff_get] at hf
      have hs := hf.2 i (lt_of_getElem? hB) (lt_of_getElem? hA)
      rw [List.get_eq_getElem, List.get_eq_getElem, (List.getElem?_eq_some_iff.mp hA).2, (List.getElem?_eq_some_iff.mp hB).2] at hs
      refine List.perm_append_comm.trans ?_
      rw [← permsign_ne_zero, hs]
      decide
  · have : D = 1 := by omega
    subst this
    have ht : hodgeTrivial 1 O = true := by
      have : O = 0 ∨ O = 1 := by omega
      rcases this with rfl | rfl <;> decide
    obtain ⟨Ca', Cb', h1, h2, hf⟩ := trivial_bases hO ht
    rw [hCa] at h1
    rw [hCb] at h2
    simp only [Option.some.injEq] at h1 h2
    subst h1 h2
    rw [List.forall₂_iff_get] at hf
    have hs := hf.2 i (lt_of_getElem? hA) (lt_of_getElem? hB)
    rw [List.get_eq_getElem, List.get_eq_getElem, (List.getElem?_eq_some_iff.mp hA).2, (List.getElem?_eq_some_iff.mp hB).2] at hs
    rw [Compl, ← permsign_ne_zero, hs]
    decide

/-- Complements are unique in a basis. -/
theorem compl_place {D O : Nat} {Ca : List (List Nat)} (ha : IsBasis D O Ca) {i j : Nat} {A A' B : List Nat} (hA : Ca[i]? = some A) (hA' : Ca[j]? = some A')
    (h : Compl D A B) (h' : Compl D A' B) : i = j := by
  have hp : A.Perm A' := (List.perm_append_right_iff B).mp (h.trans h'.symm)
  obtain ⟨hb, hl⟩ := (isBasis_iff.mp ha).1 A (List.mem_of_getElem? hA)
  obtain ⟨k, -, -, -, hu⟩ := (isBasis_iff.mp ha).2 A hb hl
  have e1 := hu i A hA (List.Perm.refl _)
  have e2 := hu j A' hA' hp
  omega

/-- C93. In place in a view of `int`s, when `2*O` isn't `D`. -/
theorem C93_view_partial (D O : Nat) (hO : O ≤ D) (h2 : 2 * O ≠ D) (a : View) (xs : List R) (μ : Mem R) (hx : xs.length = D.choose O) (ha : VecOf μ a xs)
    (hd : Distinct a [xs.length]) : ∃ r μ', hodgeView .int D O a μ = (.ok (), μ') ∧ IsStar D O xs r ∧ VecOf μ' a r ∧ SameOutside (InView a [xs.length]) μ μ' := by
  have hy : xs.length = D.choose (D - O) := by rw [hx, Nat.choose_symm hO]
  obtain ⟨r, hr, hs⟩ := hodgex_star hO hx hy
  obtain ⟨μ', e1, e2, e3⟩ := hodgexFrom_run .int (by simp) hO (rd := fun i => a.elemAt Act.read [(i : Int)])
    (fun i μ => ∃ zs, VecOf μ a zs ∧ zs.length = xs.length ∧ ∀ j, i ≤ j → zs[j]? = xs[j]?)
    (fun i μ x ⟨zs, hv, _, hz⟩ hx => vec_read hv (by rw [hz i (le_refl i), hx])) hx hy hd ha ⟨xs, ha, rfl, fun _ _ => rfl⟩
    (fun j μ C Ca Cb Cr Lex w s x hCa hCb hCr hLex hC hp hw ⟨zs, hv, hl, hz⟩ => by
      refine ⟨zs.set w x, (vec_write hv (hl.symm ▸ hd) (by omega) x).2, by simpa using hl, fun j' hj' => ?_⟩
      obtain ⟨Ca', hCa', hba, hla⟩ := C45_choose D O hO
      obtain ⟨Cb', hCb', hbb, hlb⟩ := C45_choose D (D - O) (by omega)
      obtain ⟨X, hX, hXp, hXs⟩ := choose_full D
      obtain ⟨Lex', hLex', hbL, -, -⟩ := combs_basis hO
      rw [Nat.add_sub_cancel' hO, hX] at hCr
      rw [mpIota_zero, hLex'] at hLex
      rw [hCa] at hCa'
      rw [hCb] at hCb'
      simp only [Option.some.injEq] at hCa' hCb' hCr hLex
      subst hCa' hCb' hCr hLex
      obtain ⟨w', B, hB, hcomp, hp'⟩ := hodgePlace_eq hO hba hbb hbL hXs hC
      rw [hp] at hp'
      simp only [Option.some.injEq, Prod.mk.injEq] at hp'
      obtain ⟨rfl, -⟩ := hp'
      have hj := lt_of_getElem? hC
      have hBj : Cb[j]? = some (Cb.getD j []) := getElem?_getD (by omega)
      have hwj : w = j := compl_place hbb hB hBj (List.perm_append_comm.trans hcomp) (List.perm_append_comm.trans (same_place hO h2 hCa hCb hC hBj))
      rw [List.getElem?_set_ne (by omega), hz j' (by omega)]) hr
  refine ⟨r, μ', ?_, hs, e2, e3⟩
  rw [hodgeView, hodgexMem, vec_size ha.1]
  exact e1

/-- C93 fails. In place in a view of `int`s when `2*O` is `D`, for every `O` but 0: there are elements for which the result isn't the Hodge star. -/
theorem C93_view_negation [Nontrivial R] (O : Nat) (hO : 1 ≤ O) (a : View) (ha : Shaped a [some ((2 * O).choose O)]) (hd : Distinct a [(2 * O).choose O]) :
    ∃ xs : List R, xs.length = (2 * O).choose O ∧ ∀ μ, VecOf μ a xs → ∃ r μ', hodgeView .int (2 * O) O a μ = (.ok (), μ') ∧ VecOf μ' a r ∧ ¬ IsStar (2 * O) O xs r := by
  have hO2 : O ≤ 2 * O := by omega
  have hsub : 2 * O - O = O := by omega
  obtain ⟨Ca, hCa, hba, hla⟩ := C45_choose (2 * O) O hO2
  obtain ⟨X, hX, hXp, hXs⟩ := choose_full (2 * O)
  obtain ⟨Lex, hLex, hbL, -, -⟩ := combs_basis hO2
  have hbb : IsBasis (2 * O) (2 * O - O) Ca := by rw [hsub]; exact hba
  have hpos : 0 < Ca.length := by rw [hla]; exact Nat.choose_pos hO2
  have h0 : Ca[0]? = some Ca[0] := List.getElem?_eq_getElem hpos
  obtain ⟨w, B, hB, hcomp, hp0⟩ := hodgePlace_eq hO2 hba hbb hbL hXs h0
  have hwlt := lt_of_getElem? hB
  have hw0 : w ≠ 0 := by
    rintro rfl
    rw [h0] at hB
    simp only [Option.some.injEq] at hB
    subst hB
    have hn := hcomp.nodup_iff.mpr List.nodup_range
    have hl := ((isBasis_iff.mp hba).1 _ (List.mem_of_getElem? h0)).2
    cases hA : Ca[0] with
    | nil => rw [hA] at hl; simp at hl; omega
    | cons x A =>
      rw [hA] at hn
      simp at hn
  -- places
  have place {i : Nat} {C : List Nat} {w' : Nat} {s : Int} (hC : Ca[i]? = some C) (hp : hodgePlace (2 * O) O Lex Ca [X] C = some (w', s)) :
      ∃ B, Ca[w']? = some B ∧ Compl (2 * O) C B := by
    obtain ⟨w1, B1, hB1, hc1, hp1⟩ := hodgePlace_eq hO2 hba hbb hbL hXs hC
    rw [hp] at hp1
    simp only [Option.some.injEq, Prod.mk.injEq] at hp1
    obtain ⟨rfl, -⟩ := hp1
    exact ⟨B1, hB1, hc1⟩
  let xs : List R := List.ofFn fun j : Fin ((2 * O).choose O) => if (j : Nat) = w then (1 : R) else 0
  have hxl : xs.length = (2 * O).choose O := by simp [xs]
  have hx0 : xs[0]? = some 0 := by
    simp only [xs, List.getElem?_ofFn]
    rw [dif_pos (by omega), if_neg (by simpa using hw0.symm)]
  refine ⟨xs, hxl, fun μ hμ => ?_⟩
  obtain ⟨zs, μ', e1, e2, e3, e4, -⟩ := hodgeLoop_view .int (by simp) (D := 2 * O) (O := O) (Lex := Lex) (Cb := Ca) (Cr := [X]) (a := a)
    (fun i zs => (i = 0 → zs = xs) ∧ (1 ≤ i → zs[w]? = some 0) ∧ (w < i → zs[0]? = some 0)) Ca ((2 * O).choose O) hla hla hd
    (fun i C hC => by
      obtain ⟨w', B', -, -, h⟩ := hodgePlace_eq hO2 hba hbb hbL hXs hC
      exact ⟨_, _, h⟩)
    (fun i C w' s zs x hC hp hl hx ⟨p1, p2, p3⟩ => by
      obtain ⟨B', hB', hc'⟩ := place hC hp
      have hw' := lt_of_getElem? hB'
      refine ⟨by omega, fun _ => ?_, fun hwi => ?_⟩
      · by_cases hi : i = 0
        · subst hi
          rw [p1 rfl, hx0] at hx
          rw [h0] at hC
          simp only [Option.some.injEq] at hx hC
          subst hx hC
          rw [hp0] at hp
          simp only [Option.some.injEq, Prod.mk.injEq] at hp
          rw [← hp.1, List.getElem?_set_self (by omega), mul_zero]
        · rw [List.getElem?_set_ne, p2 (by omega)]
          rintro rfl
          rw [hB] at hB'
          simp only [Option.some.injEq] at hB'
          subst hB'
          exact hi (compl_place hba hC h0 hc' hcomp)
      · by_cases hi : i = w
        · subst hi
          rw [p2 (by omega)] at hx
          rw [hB] at hC
          simp only [Option.some.injEq] at hx hC
          subst hx hC
          have : w' = 0 := compl_place hba hB' h0 (List.perm_append_comm.trans hc') hcomp
          rw [this, List.getElem?_set_self (by omega), mul_zero]
        · rw [List.getElem?_set_ne, p3 (by omega)]
          rintro rfl
          rw [h0] at hB'
          simp only [Option.some.injEq] at hB'
          subst hB'
          exact hi (compl_place hba hC hB hc' (List.perm_append_comm.trans hcomp)))
    Ca 0 xs μ (by omega) rfl hμ hxl ⟨fun _ => rfl, by omega, by omega⟩
  refine ⟨zs, μ', ?_, e2, fun hs => ?_⟩
  · rw [hodgeView, hodgexMem, hodgexFrom, hsub, hCa, show O + O = 2 * O by omega, hX, mpIota_zero, hLex]
    simp only
    rw [if_pos ⟨hO2, by rw [vec_size ha, C44_binom], by rw [vec_size ha, C44_binom]⟩]
    exact e1
  · obtain ⟨Ca', Cb', r, hCa', hCb', hr, hrl, hrk⟩ := C48_hodgex (2 * O) O hO2 xs xs hxl (by rw [hsub]; exact hxl)
    obtain ⟨r', hr', hs'⟩ := hodgex_star hO2 hxl (b := xs) (by rw [hsub]; exact hxl)
    rw [hr] at hr'
    simp only [Option.some.injEq] at hr'
    subst hr'
    have := C93_star_unique _ _ hO2 _ _ _ hs hs'
    subst this
    rw [hsub, hCa] at hCb'
    rw [hCa] at hCa'
    simp only [Option.some.injEq] at hCa' hCb'
    subst hCa' hCb'
    have hc1 : Compl (2 * O) B Ca[0] := List.perm_append_comm.trans hcomp
    have e := hrk w 0 B Ca[0] hB h0 _ (isSign_of_perm hc1)
    have hxw : xs.getD w 0 = 1 := by
      simp only [xs, List.getD, List.getElem?_ofFn]
      rw [dif_pos (by omega)]
      simp
    rw [hxw, mul_one, List.getD, e4.2.2 (by omega), Option.getD_some] at e
    have sq := congrArg (Int.cast : Int → R) (permsign_sq List.nodup_range hc1)
    push_cast at sq
    rw [← e, mul_zero] at sq
    exact zero_ne_one sq

/-- C93 fails. For a view of elements that aren't constant or `int` the behavior of `hodgex` is undefined, for all sizes. -/
theorem C93_cast_negation (D O : Nat) (hO : O ≤ D) (a b : View) (ha : Shaped a [some (D.choose O)]) (hb : Shaped b [some (D.choose (D - O))]) (μ : Mem R) :
    hodgexMem .other D O a b μ = (.error .ub, μ) := by
  obtain ⟨Ca, hCa, hba, hla⟩ := C45_choose D O hO
  obtain ⟨Cb, hCb, hbb, hlb⟩ := C45_choose D (D - O) (by omega)
  obtain ⟨X, hX, hXp, hXs⟩ := choose_full D
  obtain ⟨Lex, hLex, hbL, -, -⟩ := combs_basis hO
  rw [hodgexMem, hodgexFrom, hCa, hCb, Nat.add_sub_cancel' hO, hX, mpIota_zero, hLex]
  simp only
  rw [if_pos ⟨hO, by rw [vec_size ha, C44_binom], by rw [vec_size hb, C44_binom]⟩]
  cases Ca with
  | nil =>
    have := Nat.choose_pos hO
    simp at hla
    omega
  | cons C Ca =>
    obtain ⟨w, B, -, -, hp⟩ := hodgePlace_eq hO hba hbb hbL hXs (i := 0) (C := C) rfl
    rw [hodgeLoop, hp]
    rfl

/-! ## Examples -/

/-- Memory with the elements 3, 4, 5, 6, 7, 8 at the addresses from 0 on. -/
def egHodgeMem : Mem Int := fun p => if 0 ≤ p ∧ p < 6 then some (p + 3) else none

theorem eg_vecOf (v : View) (xs : List Int) (st : Int) (h : v.dims = [⟨xs.length, st⟩]) (he : ∀ k : Fin xs.length, egHodgeMem (v.cp + (k : Int) * st) = some xs[k]) :
    VecOf egHodgeMem v xs := by
  refine ⟨by rw [Shaped, h]; exact .cons (by simp [DimLen]) .nil, fun k hk => ?_⟩
  have := he ⟨k, hk⟩
  simp only [address, h, List.map_cons, List.map_nil, dot, List.getElem?_eq_getElem hk]
  simpa using this

theorem eg_distinct (v : View) (n : Nat) (st : Int) (h : v.dims = [⟨n, st⟩]) (hs : st ≠ 0) : Distinct v [n] := by
  intro j k hj hk he
  match j, k with
  | [x], [y] =>
    simp only [address, h, List.map_cons, List.map_nil, dot] at he
    have : x * st = y * st := by simpa using he
    rw [mul_right_cancel₀ hs this]
  | [], _ => simp [Valid] at hj
  | _ :: _ :: _, _ => simp [Valid] at hj
  | _, [] => simp [Valid] at hk
  | _, _ :: _ :: _ => simp [Valid] at hk

/-- For `C93_hodgex_partial`: from 3 elements to the next 3. -/
example : ∃ r μ', hodgexMem .const 3 1 ⟨[⟨3, 1⟩], 0⟩ ⟨[⟨3, 1⟩], 3⟩ egHodgeMem = (.ok (), μ') ∧ IsStar 3 1 [3, 4, 5] r ∧ VecOf μ' ⟨[⟨3, 1⟩], 3⟩ r ∧
    VecOf μ' ⟨[⟨3, 1⟩], 0⟩ [3, 4, 5] ∧ SameOutside (InView ⟨[⟨3, 1⟩], 3⟩ [3]) egHodgeMem μ' :=
  C93_hodgex_partial .const (by simp) 3 1 (by decide) _ _ [3, 4, 5] [6, 7, 8] egHodgeMem rfl rfl (eg_vecOf _ _ 1 rfl (by decide)) (eg_vecOf _ _ 1 rfl (by decide))
    (eg_distinct _ _ 1 rfl (by decide)) (by
      rintro p ⟨j, hj, rfl⟩ ⟨k, hk, he⟩
      match j, k with
      | [x], [y] =>
        simp [address, dot, Valid] at he hj hk
        omega
      | [], _ => simp [Valid] at hj
      | _ :: _ :: _, _ => simp [Valid] at hj
      | _, [] => simp [Valid] at hk
      | _, _ :: _ :: _ => simp [Valid] at hk)

/-- For `C93_array`: two elements in place. -/
example : ∃ r μ', hodgeArray 2 1 ⟨[⟨2, 1⟩], 0⟩ egHodgeMem = (.ok (), μ') ∧ IsStar 2 1 [3, 4] r ∧ VecOf μ' ⟨[⟨2, 1⟩], 0⟩ r ∧ SameOutside (InView ⟨[⟨2, 1⟩], 0⟩ [2]) egHodgeMem μ' :=
  C93_array 2 1 (by decide) _ [3, 4] egHodgeMem rfl (eg_vecOf _ _ 1 rfl (by decide)) (eg_distinct _ _ 1 rfl (by decide))

example : (hodgeArray 2 1 ⟨[⟨2, 1⟩], 0⟩ egHodgeMem).2 0 = some (-4) ∧ (hodgeArray 2 1 ⟨[⟨2, 1⟩], 0⟩ egHodgeMem).2 1 = some 3 := by decide +kernel

/-- For `C93_view_partial`: four elements in place, the order is 3 of 4. -/
example : ∃ r μ', hodgeView .int 4 3 ⟨[⟨4, 1⟩], 0⟩ egHodgeMem = (.ok (), μ') ∧ IsStar 4 3 [3, 4, 5, 6] r ∧ VecOf μ' ⟨[⟨4, 1⟩], 0⟩ r ∧
    SameOutside (InView ⟨[⟨4, 1⟩], 0⟩ [4]) egHodgeMem μ' :=
  C93_view_partial 4 3 (by decide) (by decide) _ [3, 4, 5, 6] egHodgeMem rfl (eg_vecOf _ _ 1 rfl (by decide)) (eg_distinct _ _ 1 rfl (by decide))

/-- For `C93_view_negation`: the same two elements as above, that give another result. -/
example : (hodgeView .int 2 1 ⟨[⟨2, 1⟩], 0⟩ egHodgeMem).2 0 = some (-3) ∧ (hodgeView .int 2 1 ⟨[⟨2, 1⟩], 0⟩ egHodgeMem).2 1 = some 3 := by decide +kernel

example : ∃ xs : List Int, xs.length = 2 ∧ ∀ μ, VecOf μ ⟨[⟨2, 1⟩], 0⟩ xs → ∃ r μ', hodgeView .int 2 1 ⟨[⟨2, 1⟩], 0⟩ μ = (.ok (), μ') ∧ VecOf μ' ⟨[⟨2, 1⟩], 0⟩ r ∧ ¬ IsStar 2 1 xs r :=
  C93_view_negation 1 (le_refl 1) _ (.cons (by simp [DimLen]) .nil) (eg_distinct _ _ 1 rfl (by decide))

/-- For `C93_wedge`: the product of 3, 4, 5 and 5, 6, 7, in place of 4, 5, 6. -/
example : ∃ z μ', wedgeMem 3 1 1 ⟨[⟨3, 1⟩], 0⟩ ⟨[⟨3, 1⟩], 2⟩ ⟨[⟨3, 1⟩], 1⟩ egHodgeMem = (.ok (), μ') ∧ IsWedge 3 1 1 [3, 4, 5] [5, 6, 7] z ∧ VecOf μ' ⟨[⟨3, 1⟩], 1⟩ z ∧
    SameOutside (InView ⟨[⟨3, 1⟩], 1⟩ [3]) egHodgeMem μ' :=
  C93_wedge 3 1 1 (by decide) _ _ _ [3, 4, 5] [5, 6, 7] [4, 5, 6] egHodgeMem rfl rfl rfl (eg_vecOf _ _ 1 rfl (by decide)) (eg_vecOf _ _ 1 rfl (by decide)) (eg_vecOf _ _ 1 rfl (by decide))
    (eg_distinct _ _ 1 rfl (by decide))

end Ra.Props
