import Verif.Spec.Index
import Verif.Model.Format
/-!
# Specification of printing, reading and format specifications

From the model, only the options of a format, the outcomes, and `isSpace`.
-/

namespace Ra.Spec

/-- The items with `sep` between them. -/
def between (sep : List Char) : List (List Char) → List Char
  | [] => []
  | [x] => x
  | x :: y :: l => x ++ sep ++ between sep (y :: l)

/-- `n` times the same. -/
def times (n : Nat) (s : List Char) : List Char := (List.replicate n s).flatten

/-- What goes between the items of axis `k`, when there are `inner` axes after it. On the last axis it's `sep0`. On the others it's `sepn`, and then `rep` once
for each axis between this one and the last. If the style has alignment then the next line is indented as far as the brackets go that are open at that point. -/
def separator (fmt : Format) (k inner : Nat) : List Char :=
  match inner with
  | 0 => fmt.sep0
  | r + 1 => fmt.sepn ++ times r fmt.rep ++ if fmt.align then List.replicate ((k + 1) * fmt.opn.length) ' ' else []

/-- The elements of an array as text, where axis 0 of `s` is axis `k` of the whole. Each group of an axis is bracketed. `f j` gives the text of element `j`. -/
def render (fmt : Format) (k : Nat) : List Nat → (List Int → List Char) → List Char
  | [], f => f []
  | n :: s, f => fmt.opn ++ between (separator fmt k s.length) ((List.range n).map fun (i : Nat) => render fmt (k + 1) s fun j => f (i :: j)) ++ fmt.cls

/-- The elements of an array as text, written so that it's easy to see. The items of the last axis have `sep` between them. Those of other axes are on different lines, and `line k r` is what goes
between them, where `k` is the number of brackets that are open and `r` the number of axes between this one and the last. -/
def lines (opn cls sep : String) (line : Nat → Nat → String) (k : Nat) : List Nat → (List Int → List Char) → List Char
  | [], f => f []
  | [n], f => opn.toList ++ between sep.toList ((List.range n).map fun (i : Nat) => f [(i : Int)]) ++ cls.toList
  | n :: m :: s, f => opn.toList ++ between (line (k + 1) s.length).toList ((List.range n).map fun (i : Nat) => lines opn cls sep line (k + 1) (m :: s) fun j => f (i :: j)) ++ cls.toList

/-- `n` spaces. -/
def spaces (n : Nat) : String := String.ofList (List.replicate n ' ')

/-- `n` empty lines. -/
def blanks (n : Nat) : String := String.ofList (List.replicate n '\n')

/-- The elements in the style of C: `{{1, 2},` and on the next line ` {3, 4}}`. -/
def cText := lines "{" "}" ", " (fun k _ => ",\n" ++ spaces k) 0
/-- The elements in the style of Lisp: `((1 2)` and on the next line ` (3 4))`. -/
def lText := lines "(" ")" " " (fun k _ => "\n" ++ spaces k) 0
/-- The elements in the style of Python: `[[1, 2],` and on the next line ` [3, 4]]`, with empty lines between the items of the axes before those. -/
def pText := lines "[" "]" ", " (fun k r => ",\n" ++ blanks r ++ spaces k) 0
/-- The elements in the style of J: `1 2` and on the next line `3 4`, with empty lines between the items of the axes before those. -/
def jText := lines "" "" " " (fun _ r => "\n" ++ blanks r) 0

/-- The same, when there are effects in evaluating the elements. -/
def renderM {m : Type → Type} [Monad m] (fmt : Format) (k : Nat) : List Nat → (List Int → m (List Char)) → m (List Char)
  | [], f => f []
  | n :: s, f => do
    let l ← (List.range n).mapM fun (i : Nat) => renderM fmt (k + 1) s fun j => f (i :: j)
    pure (fmt.opn ++ between (separator fmt k s.length) l ++ fmt.cls)

/-- Base 10. -/
def decimal (n : Nat) : List Char := Nat.toDigits 10 n

/-- If the shape is printed. -/
def Format.showsShape (fmt : Format) (anysize : Bool) : Bool :=
  match fmt.shape with
  | .noshape => false
  | .withshape => true
  | .defaultshape => anysize

/-- The shape as text: the lengths with a space in between, and a new line. Before it, the rank in its own line, if it isn't static. -/
def header (anyrank : Bool) (s : List Nat) : List Char :=
  (if anyrank then decimal s.length ++ ['\n'] else []) ++ between [' '] (s.map decimal) ++ ['\n']

/-- Only white space. -/
def White (w : List Char) : Prop := ∀ c ∈ w, isSpace c = true

/-- Nothing, or else white space at the beginning. -/
def Ends (w : List Char) : Prop := ∀ c, w.head? = some c → isSpace c = true

/-- The elements can be read as they're printed, as long as there's white space or nothing after. -/
def RoundTrips {V : Type} (print : V → List Char) (rd : List Char → Option (V × List Char)) : Prop :=
  ∀ w x r, White w → Ends r → rd (w ++ print x ++ r) = some (x, r)

/-- A piece of a format specification: a letter, or the separators. -/
inductive Piece where
  | letter (c : Char)
  | seps (sep0 sepn : List Char)

/-- The letters are those of the manual and the separators don't have a closing bracket. -/
def Piece.Good : Piece → Prop
  | .letter c => c ∈ ['j', 'c', 'l', 'p', 'a', 'e', 's', 'n', 'd']
  | .seps a b => '}' ∉ a ∧ '}' ∉ b

/-- As it's written. -/
def Piece.text : Piece → List Char
  | .letter c => [c]
  | .seps a b => 'S' :: '{' :: a ++ '}' :: '{' :: b ++ ['}']

/-- What it means. -/
def Piece.apply (fmt : Format) : Piece → Format
  | .letter 'j' => jstyle
  | .letter 'c' => cstyle
  | .letter 'l' => lstyle
  | .letter 'p' => pstyle
  | .letter 'a' => { fmt with align := true }
  | .letter 'e' => { fmt with align := false }
  | .letter 's' => { fmt with shape := .withshape }
  | .letter 'n' => { fmt with shape := .noshape }
  | .letter 'd' => { fmt with shape := .defaultshape }
  | .letter _ => fmt
  | .seps a b => { fmt with sep0 := a, sepn := b }

/-- Text that ends inside the separators. -/
def CutShort (s : List Char) : Prop :=
  ∃ (l : List Piece) (t : List Char), (∀ p ∈ l, p.Good) ∧ s = (l.map Piece.text).flatten ++ 'S' :: t ∧
    (t = [] ∨ (∃ a, '}' ∉ a ∧ t = '{' :: a) ∨ (∃ a, '}' ∉ a ∧ t = '{' :: a ++ ['}']) ∨ ∃ a b, '}' ∉ a ∧ '}' ∉ b ∧ t = '{' :: a ++ '}' :: '{' :: b)

end Ra.Spec
