import Verif.Spec.Value
import Verif.Model.Shared
/-!
# Specification of arrays with shared storage

From the model only the types of the operations, of views and of memory are used. The elements of an array are an object, and the variables are references to objects. Objects last forever.
-/

namespace Ra.Spec

/-- The elements in row-major order, or a view of other memory. -/
inductive Object (V : Type) where
  | made (xs : List V)
  | borrowed (v : View)

/-- A variable: its shape, and which object it refers to. If `fixed` then the rank is part of its type. -/
structure Handle where
  fixed : Bool
  shape : List Nat
  obj : Option Nat

/-- The variables, the objects, and other memory. -/
structure World (V : Type) where
  handles : List (Option Handle)
  objects : List (Object V)
  memory : Mem V

section
variable {V : Type}

/-- The element at `j`. -/
def World.read (w : World V) (h : Handle) (j : List Int) : Option V :=
  match h.obj with
  | none => none
  | some k =>
    match w.objects[k]? with
    | some (.made xs) => xs[(position h.shape j).toNat]?
    | some (.borrowed v) => w.memory (address v j)
    | none => none

/-- Replace the element at `j`. -/
def World.write (w : World V) (h : Handle) (j : List Int) (x : V) : Option (World V) :=
  match h.obj with
  | none => none
  | some k =>
    match w.objects[k]? with
    | some (.made xs) => some { w with objects := w.objects.set k (.made (xs.set (position h.shape j).toNat x)) }
    | some (.borrowed v) => some { w with memory := fun p => if p = address v j then some x else w.memory p }
    | none => none

/-- A variable that was moved from. -/
def Handle.moved (h : Handle) : Handle := ⟨h.fixed, if h.fixed then h.shape else [], none⟩

/-- The effect of one operation. There's none if it isn't allowed. -/
def SOp.effect (w : World V) : SOp V → Option (World V)
  | .default rk => some { w with handles := w.handles ++ [some ⟨rk.isSome, List.replicate (rk.getD 1) 0, none⟩] }
  | .create rk _ fill s => some { w with
      handles := w.handles ++ [some ⟨rk.isSome, s.map Int.toNat, some w.objects.length⟩],
      objects := w.objects ++ [.made (fit [] fill (size (s.map Int.toNat)))] }
  | .borrow rk v => some { w with
      handles := w.handles ++ [some ⟨rk.isSome, v.dims.map fun d => d.len.toNat, some w.objects.length⟩],
      objects := w.objects ++ [.borrowed v] }
  | .copyNew j =>
    match w.handles[j]? with
    | some (some h) => some { w with handles := w.handles ++ [some h] }
    | _ => none
  | .moveNew j =>
    match w.handles[j]? with
    | some (some h) => some { w with handles := w.handles.set j (some h.moved) ++ [some h] }
    | _ => none
  | .copy i j =>
    match w.handles[j]? with
    | some (some h) => some { w with handles := w.handles.set i (some h) }
    | _ => none
  | .move i j =>
    match w.handles[j]? with
    | some (some h) => some { w with handles := (w.handles.set j (some h.moved)).set i (some h) }
    | _ => none
  | .swap i j =>
    match w.handles[i]?, w.handles[j]? with
    | some (some g), some (some h) => some { w with handles := (w.handles.set i (some { h with fixed := g.fixed })).set j (some { g with fixed := h.fixed }) }
    | _, _ => none
  | .destroy i => some { w with handles := w.handles.set i none }
  | .set i j x =>
    match w.handles[i]? with
    | some (some h) => if j ∈ rowMajor h.shape then w.write h j x else none
    | _ => none

/-- The effect of some operations, one after the other. -/
def sharedEffects : List (SOp V) → World V → Option (World V)
  | [], w => some w
  | c :: cs, w =>
    match SOp.effect w c with
    | some w' => sharedEffects cs w'
    | none => none

/-- A variable in the program (with memory `μ`) and in the world: both are gone, or they have the same shape and elements. If the variable doesn't refer to anything then there are no elements. -/
def Stands (μ : Mem V) (w : World V) : Option SArr → Option Handle → Prop
  | none, none => True
  | some a, some h => Shaped a.arr.view (h.shape.map some) ∧ (h.obj ≠ none → ∀ j, Valid h.shape j → ∃ x, w.read h j = some x ∧ μ (address a.arr.view j) = some x)
  | _, _ => False

end
end Ra.Spec
