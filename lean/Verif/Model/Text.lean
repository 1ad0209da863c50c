import Verif.Model.Prelude

/-!
# Tokenizers and shingles (`gaoya/src/text/tokenizers.rs`, `gaoya/src/text/multi_shingles.rs`)

A `&str` is the list of its characters where the code works with characters (`whitespace_split`), and the list
of its UTF-8 bytes where the code works with bytes (`MultiShingles<str>`). `shingle_text`, `shingle_text_boxed`
and `shingle_tokens` call the external crate `shingles` and are not modelled.
-/
namespace Verif

/-! ### tokenizers.rs -/

/-- `char::is_ascii_punctuation` (std). Used in tokenizers.rs 5-15. -/
def isAsciiPunctuation (c : Char) : Bool :=
  let n := c.toNat
  (0x21 ≤ n && n ≤ 0x2F) || (0x3A ≤ n && n ≤ 0x40) || (0x5B ≤ n && n ≤ 0x60) || (0x7B ≤ n && n ≤ 0x7E)

/-- `char::is_ascii_whitespace` (std): space, tab, line feed, form feed, carriage return.
Used in tokenizers.rs 5-15. -/
def isAsciiWhitespace (c : Char) : Bool :=
  let n := c.toNat
  n == 0x20 || n == 0x09 || n == 0x0A || n == 0x0C || n == 0x0D

/-- `str::split(pred)` (std): the pieces between the separators, empty ones included. Used in tokenizers.rs 5-15. -/
def strSplit (p : Char → Bool) : List Char → List (List Char)
  | [] => [[]]
  | c :: cs =>
    if p c then [] :: strSplit p cs
    else match strSplit p cs with
      | [] => [[c]]
      | t :: ts => (c :: t) :: ts

/-- `whitespace_split`, tokenizers.rs 5-9. -/
def whitespaceSplit (text : List Char) : List (List Char) :=
  (strSplit (fun c => isAsciiPunctuation c || isAsciiWhitespace c) text).filter fun x => !x.isEmpty

/-- `whitespace_split_boxed`, tokenizers.rs 11-15. -/
def whitespaceSplitBoxed (text : List Char) : List (List Char) :=
  (strSplit (fun c => isAsciiPunctuation c || isAsciiWhitespace c) text).filter fun x => !x.isEmpty

/-! ### multi_shingles.rs -/

/-- `MultiShingles`, multi_shingles.rs lines 6-12; `D` is the type of the data slice. -/
structure MultiShingles (D : Type) where
  data : D
  fromSize : Nat
  toSize : Nat
  size : Nat
  step : Nat

/-- `MultiShingles::new`, lines 16-24; also `as_shingles` (99-108) and `shingle_text_range`
(tokenizers.rs 22-24). -/
def MultiShingles.new {D : Type} (data : D) (fromSize toSize : Nat) : MultiShingles D :=
  { data, fromSize, toSize, size := fromSize, step := 1 }

/-- `MultiShingles<[T]>::next`, multi_shingles.rs lines 30-42: the item and the new state. `size + 1` cannot overflow because
`size` is at most the length of the data. -/
def MultiShingles.nextSlice {α : Type} (s : MultiShingles (List α)) :
    Except Panic (Option (List α) × MultiShingles (List α)) :=
  if s.data.length ≥ s.size then do
    let ret ← slice s.data 0 s.size
    if s.size + 1 > s.toSize then
      let data ← slice s.data s.step s.data.length
      pure (some ret, { s with size := s.fromSize, data := data })
    else pure (some ret, { s with size := s.size + 1 })
  else .ok (none, s)

/-- `(128..192).contains(&b)`, multi_shingles.rs line 56: a UTF-8 continuation byte. -/
def isCont (b : UInt8) : Bool := decide (128 ≤ b.toNat ∧ b.toNat < 192)

/-- `str::is_char_boundary` (std). For multi_shingles.rs 73-89. -/
def isCharBoundary (s : List UInt8) (i : Nat) : Bool :=
  i == 0 || i == s.length || (match s[i]? with
    | some b => !isCont b
    | none => false)

/-- `&s[start..end]` on a `str` (std): panics out of bounds and inside a character.
Used in multi_shingles.rs 73-89. -/
def strSlice (s : List UInt8) (a e : Nat) : Except Panic (List UInt8) :=
  if a ≤ e ∧ e ≤ s.length ∧ isCharBoundary s a = true ∧ isCharBoundary s e = true then
    .ok ((s.drop a).take (e - a))
  else .error .index

/-- `data.as_bytes().iter().enumerate().filter(..)`, multi_shingles.rs lines 54-56 (positions only). -/
def boundaries (s : List UInt8) : List Nat :=
  (s.zipIdx.filter fun p => !isCont p.1).map Prod.snd

/-- The loop of multi_shingles.rs lines 59-70: `pos_next`, `pos_end` and `chars` at its end. -/
def strLoop (step size : Nat) : List Nat → Nat → Nat → Nat → Nat × Nat × Nat
  | [], posNext, posEnd, chars => (posNext, posEnd, chars)
  | i :: rest, posNext, posEnd, chars =>
    let posNext := if chars = step then i else posNext
    let posEnd := if chars = size then i else posEnd
    if posNext ≠ 0 ∧ posEnd ≠ 0 then (posNext, posEnd, chars)
    else strLoop step size rest posNext posEnd (chars + 1)

/-- The shingle of `MultiShingles<str>::next`, multi_shingles.rs lines 73-79. -/
def strRet (data : List UInt8) (posEnd chars size : Nat) : Except Panic (Option (List UInt8)) :=
  if posEnd ≠ 0 then (strSlice data 0 posEnd).map some
  else if chars = size then .ok (some data)
  else .ok none

/-- Moving the data slice, multi_shingles.rs lines 85-89. -/
def strMove (data : List UInt8) (posNext : Nat) : Except Panic (List UInt8) :=
  if posNext ≠ 0 then strSlice data posNext data.length else strSlice data data.length data.length

/-- `MultiShingles<str>::next`, multi_shingles.rs lines 48-93. `size + 1` is not reduced modulo 2^64 (it could only overflow with
`from_size = usize::MAX`, on the call that returns `None`). -/
def MultiShingles.nextStr (s : MultiShingles (List UInt8)) :
    Except Panic (Option (List UInt8) × MultiShingles (List UInt8)) := do
  let r := strLoop s.step s.size (boundaries s.data) 0 0 0
  let ret ← strRet s.data r.2.1 r.2.2 s.size
  if s.size + 1 > s.toSize then
    let data ← strMove s.data r.1
    pure (ret, { s with size := s.fromSize, data := data })
  else pure (ret, { s with size := s.size + 1 })

/-- Calling `next` until it answers `None` (a `for` loop or `collect`), with at most `fuel` calls; `none` if the
iterator is not exhausted by then. The consumers of multi_shingles.rs 25-93. -/
def collect {σ ι : Type} (next : σ → Except Panic (Option ι × σ)) : Nat → σ → Option (Except Panic (List ι))
  | 0, _ => none
  | fuel + 1, s =>
    match next s with
    | .error e => some (.error e)
    | .ok (none, _) => some (.ok [])
    | .ok (some x, s') => (collect next fuel s').map fun r => r.map fun xs => x :: xs

end Verif
