import Verif.Model.Ply
/-!
# Printing, reading and format specifications

Text is a list of characters. The output of a call is given as its result; if evaluating an element fails, what has been printed so far isn't
part of the model.

The elements are printed by `print` (`under.format`, ply.hh:670; see ply.hh:559-568 for types that only have `<<`) and read by `rd` (`operator>>` for the
type of the element, which skips white space before it). Integers (the lengths) are printed and read in base 10; the ranges of `dim_t` and of the counter on ply.hh:674 aren't modelled.
-/

namespace Ra

/-- base.hh:437 `shape_t`. -/
inductive ShapeStyle where
  | defaultshape | withshape | noshape
  deriving DecidableEq, Repr

/-- base.hh:439-444 `format_t`. -/
structure Format where
  shape : ShapeStyle := .defaultshape
  opn : List Char := []
  cls : List Char := []
  sep0 : List Char := [' ']
  sepn : List Char := ['\n']
  rep : List Char := ['\n']
  align : Bool := false
  deriving DecidableEq

/-- base.hh:446 `jstyle`. -/
def jstyle : Format := {}
/-- base.hh:447 `nstyle`. -/
def nstyle : Format := { shape := .noshape }
/-- base.hh:448 `cstyle`. -/
def cstyle : Format := { shape := .noshape, opn := ['{'], cls := ['}'], sep0 := [',', ' '], sepn := [',', '\n'], rep := [], align := true }
/-- base.hh:449 `lstyle`. -/
def lstyle : Format := { shape := .noshape, opn := ['('], cls := [')'], sep0 := [' '], sepn := ['\n'], rep := [], align := true }
/-- base.hh:450 `pstyle`. -/
def pstyle : Format := { shape := .noshape, opn := ['['], cls := [']'], sep0 := [',', ' '], sepn := [',', '\n'], rep := ['\n'], align := true }

/-- Copy `s` `n` times: ply.hh:679-681, and 683-685 for spaces. -/
def copies (s : List Char) : Nat → List Char
  | 0 => []
  | n+1 => s ++ copies s n

/-- `std::format("{}", i)` for an integer, for the lengths (ply.hh:665). -/
def showInt (i : Int) : List Char := if i < 0 then '-' :: Nat.toDigits 10 i.natAbs else Nat.toDigits 10 i.natAbs

section
variable {m : Type → Type} {α : Type} [Monad m]

/-- ply.hh:678-686: what goes after an item of axis `k` when there are more. -/
def formatSep (fmt : Format) (rank k : Int) : List Char :=
  (if k = rank - 1 then fmt.sep0 else fmt.sepn) ++ copies fmt.rep (max 0 (rank - 2 - k)).toNat ++
  (if fmt.align && decide (k < rank - 1) then copies [' '] ((k + 1) * fmt.opn.length).toNat else [])

/-- ply.hh:674-691, the loop over axis `k`. `body` is `goin(k+1)`. The count is that of the items left, `sha-i`. -/
def formatLoop (body : Iter m α → m (List Char × Iter m α)) (sep : List Char) (k : Nat) (sha : Int) : Nat → Iter m α → m (List Char × Iter m α)
  | 0, a => pure ([], a)
  | c+1, a => do
    let r ← body a
    if c ≠ 0 then do
      let q ← formatLoop body sep k sha c (r.2.adv k 1)
      pure (r.1 ++ sep ++ q.1, q.2)
    else pure (r.1, r.2.adv k (1 - sha))

/-- ply.hh:668-694 `goin(k)`. The recursion is on `rank-k`. -/
def formatGoin (fmt : Format) (print : α → List Char) (rank : Nat) (sha : List Int) : Nat → Iter m α → m (List Char × Iter m α)
  | 0, a => do
    let x ← a.deref
    pure (print x, a)
  | n+1, a => do
    let k := rank - (n + 1)
    let r ← formatLoop (formatGoin fmt print rank sha n) (formatSep fmt rank k) k (sha.getD k 0) (sha.getD k 0).toNat a
    pure (fmt.opn ++ r.1 ++ fmt.cls, r.2)

variable [MonadFault m]

/-- ply.hh:656-697 `format`, when the shape isn't printed. -/
def formatBody (fmt : Format) (print : α → List Char) (a : Iter m α) : m (List Char) :=
  if a.validate then do
    let r ← formatGoin fmt print a.rank.toNat a.shape a.rank.toNat a
    pure r.1
  else fault .check

/-- expr.hh:128-134 `iter` for the result of `shape`, which has rank 1. -/
def lengths (l : List Int) : Iter m Int := .cell [⟨l.length, 1⟩] 0 fun i => pure (l.getD i.toNat 0)

/-- ply.hh:665 `format_to(out, "{:d}\n", iter(sha))`. If the rank isn't static then `sha` is a vector (base.hh:426-427) and its own size goes before it. -/
def formatShape (anyrank : Bool) (sha : List Int) : m (List Char) := do
  let r ← if anyrank then (do
      let r ← formatBody jstyle showInt (lengths [sha.length])
      pure (r ++ ['\n']))
    else pure []
  let s ← formatBody jstyle showInt (lengths sha)
  pure (r ++ s ++ ['\n'])

/-- ply.hh:656-697 `format`. `anysize` is `size_s(a)==ANY` and `anyrank` is `rank_s(a)==ANY`. -/
def format (fmt : Format) (print : α → List Char) (anysize anyrank : Bool) (a : Iter m α) : m (List Char) :=
  if a.validate then do
    let s ← if fmt.shape = .withshape ∨ (fmt.shape = .defaultshape ∧ anysize = true) then formatShape anyrank a.shape else pure []
    let r ← formatBody fmt print a
    pure (s ++ r)
  else fault .check

end

/-! ## Reading -/

/-- `std::isspace`, for `i >> n` on ply.hh:590. -/
def isSpace (c : Char) : Bool := c = ' ' || c = '\n' || c = '\t' || c = '\r' || c = '\x0b' || c = '\x0c'

/-- `std::isdigit`, for `i >> n` on ply.hh:590. -/
def isDigit (c : Char) : Bool := decide ('0'.toNat ≤ c.toNat) && decide (c.toNat ≤ '9'.toNat)

/-- The digits of `i >> n` on ply.hh:590, at least one. -/
def readNat (s : List Char) : Option (Nat × List Char) :=
  if (s.takeWhile isDigit).isEmpty then none else some (Nat.ofDigitChars 10 (s.takeWhile isDigit) 0, s.dropWhile isDigit)

/-- `i >> n` for an integer (ply.hh:590): white space, then the sign, if any, then the digits. -/
def readInt (s : List Char) : Option (Int × List Char) :=
  match s.dropWhile isSpace with
  | '-' :: r => (readNat r).map fun x => (-(x.1 : Int), x.2)
  | '+' :: r => (readNat r).map fun x => ((x.1 : Int), x.2)
  | r => (readNat r).map fun x => ((x.1 : Int), x.2)

/-- A `std::istream` (ply.hh:578-610): what hasn't been read, and if it's good. -/
structure Stream where
  rest : List Char
  good : Bool

section
variable {V : Type}

/-- `i >> x` (ply.hh:582, 590, 594, 607). If the stream is bad, or becomes so, then nothing is read. -/
def Stream.read (rd : List Char → Option (V × List Char)) (i : Stream) : Option V × Stream :=
  if i.good then
    match rd i.rest with
    | some (x, r) => (some x, ⟨r, true⟩)
    | none => (none, { i with good := false })
  else (none, i)

/-- ply.hh:582, 594, 607: `for (auto & ci: c) { i >> ci; }`, for `n` elements. Those that can't be read are `none`. -/
def Stream.readEach (rd : List Char → Option (V × List Char)) : Nat → Stream → List (Option V) × Stream
  | 0, i => ([], i)
  | n+1, i =>
    let x := i.read rd
    let r := Stream.readEach rd n x.2
    (x.1 :: r.1, r.2)

/-- ply.hh:586-597 `operator>>` for `std::vector`. The result is the new vector, or `none` if it isn't changed. -/
def Stream.readVector (rd : List Char → Option (V × List Char)) (i : Stream) : Except Fault (Option (List (Option V)) × Stream) :=
  match i.read readInt with
  | (some n, i) => if 0 ≤ n then .ok (let r := i.readEach rd n.toNat; (some r.1, r.2)) else .error .check
  | (none, i) => .ok (none, i)

/-- ply.hh:603 `i >> s`, where `s` is an array if the rank is static (`rank`), or else a vector. -/
def Stream.readShape (rank : Option Nat) (i : Stream) : Except Fault (List Int × Stream) :=
  match rank with
  | some r => .ok (let s := i.readEach readInt r; (s.1.map (·.getD 0), s.2))
  | none => do
    let s ← i.readVector readInt
    pure ((s.1.getD []).map (·.getD 0), s.2)

/-- ply.hh:599-610 `operator>>` for an array that doesn't have static size. The result has the shape and the elements, in row-major order (see C10 for
the loop on line 607 and C56 for the constructor on line 605); it's `none` if the array isn't changed. -/
def Stream.readArray (rank : Option Nat) (rd : List Char → Option (V × List Char)) (i : Stream) : Except Fault (Option (List Int × List (Option V)) × Stream) := do
  let s ← i.readShape rank
  if s.2.good then
    if s.1.all (fun n => decide (0 ≤ n)) then .ok (let r := s.2.readEach rd (s.1.foldl (· * ·) 1).toNat; (some (s.1, r.1), r.2))
    else .error .check
  else .ok (none, s.2)

end

/-! ## Format specifications -/

/-- What happens when parsing (ply.hh:621-655) doesn't succeed: it throws `std::format_error`, or there's undefined behaviour. -/
inductive ParseFault where
  | formatError | ub
  deriving DecidableEq, Repr

/-- `*i` on ply.hh:625-652, where the list is what goes from `i` to `ctx.end()`. -/
def parseDeref : List Char → Except ParseFault Char
  | [] => .error .ub
  | c :: _ => .ok c

/-- ply.hh:637-640 `nexti`. -/
def parseNext : List Char → Except ParseFault (List Char)
  | [] => .error .formatError
  | _ :: s => .ok s

/-- ply.hh:643 `while ('}'!=*nexti()) s+=*i`. The list starts at `i`, and the result has the text and then from `i`. -/
def parseUntil : List Char → Except ParseFault (List Char × List Char)
  | [] => .error .formatError
  | _ :: s => do
    let c ← parseDeref s
    if c = '}' then pure ([], s)
    else do
      let r ← parseUntil s
      pure (c :: r.1, r.2)

/-- ply.hh:641-644 `read`. -/
def parseRead (s : List Char) : Except ParseFault (List Char × List Char) := do
  let s ← parseNext s
  let c ← parseDeref s
  if c ≠ '{' then .error .formatError else parseUntil s

/-- ply.hh:626-650, a letter, with what goes from it on. The result starts at `i` when it's done, before `++i`. -/
def parseLetter (fmt : Format) : List Char → Except ParseFault (Format × List Char)
  | [] => .error .ub
  | c :: s =>
    if c = 'j' then .ok (jstyle, c :: s)
    else if c = 'c' then .ok (cstyle, c :: s)
    else if c = 'l' then .ok (lstyle, c :: s)
    else if c = 'p' then .ok (pstyle, c :: s)
    else if c = 'a' then .ok ({ fmt with align := true }, c :: s)
    else if c = 'e' then .ok ({ fmt with align := false }, c :: s)
    else if c = 's' then .ok ({ fmt with shape := .withshape }, c :: s)
    else if c = 'n' then .ok ({ fmt with shape := .noshape }, c :: s)
    else if c = 'd' then .ok ({ fmt with shape := .defaultshape }, c :: s)
    else if c = 'S' then do
      let r ← parseRead (c :: s)
      let q ← parseRead r.2
      pure ({ fmt with sep0 := r.1, sepn := q.1 }, q.2)
    else .error .formatError

/-- ply.hh:625-651, the loop. The fuel is the length of the text. -/
def parseLoop : Nat → Format → List Char → Except ParseFault (Format × List Char)
  | _, fmt, [] => .ok (fmt, [])
  | n, fmt, c :: s =>
    if c ≠ ':' ∧ c ≠ '}' then
      match n with
      | 0 => .error .ub
      | n+1 => do
        let r ← parseLetter fmt (c :: s)
        parseLoop n r.1 r.2.tail
    else .ok (fmt, c :: s)

/-- ply.hh:621-655 `parse`, from `ctx.begin()`. `under` is `under.parse`, for the format of the elements, that gives the rest of the text. -/
def parseFormat (under : List Char → Except ParseFault (List Char)) (fmt : Format) (s : List Char) : Except ParseFault (Format × List Char) := do
  let r ← parseLoop s.length fmt s
  let i ← match r.2 with
    | ':' :: u => under u
    | _ => pure r.2
  match i with
  | '}' :: _ => pure (r.1, i)
  | _ => .error .formatError

end Ra
