import Verif.Model.Frame
/-!
# Array subscripts on views of run time rank

ply.hh:527-545.
-/

namespace Ra

/-- ply.hh:337-342 `!beatable(i)`. -/
def Sub.unbeaten : Sub → Bool
  | .array => true
  | _ => false

/-- ply.hh:528-545 `from` on a view of run time rank, with some subscripts that can't be beaten: `is` has `array` for those and `arrays` gives them in order.
The first branch is ply.hh:534-540 and the second is ply.hh:541-545. On the first branch the subscripts don't go through `wlen`; here they're given without `len`. -/
def View.fromAny {m : Type → Type} {α : Type} [Monad m] [MonadFault m] [IndexLike α] (a : View) (rd : Int → m α) (is : List Sub) (arrays : List (Iter m α)) :
    Except Fault (Option (Iter m α)) :=
  if is.all Sub.unbeaten then
    if a.dims.length = is.length then
      .ok (fromOp (fun vs => a.elemAt rd (vs.map toIdx)) arrays)
    else .error .check
  else
    if (arrays.length : Int) = frombrank a.dims.length is then do
      let (cp, dims, _) ← fromb a.cp 0 a.dims is
      let args ← fromuArgs dims 0 ((List.range arrays.length).zip arrays)
      return fromOp (fun vs => (View.mk dims cp).elemAt rd (vs.map toIdx)) args
    else .error .check

end Ra
