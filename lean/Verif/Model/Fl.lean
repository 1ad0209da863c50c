import Mathlib.Data.Int.Log
import Mathlib.Data.Rat.Floor
import Mathlib.Algebra.Order.Field.Rat

/-!
# IEEE-754 binary floating point (trusted model of Rust's `f64` and `f32`)

Values are `nan`, `±∞` or an exact rational. `+0` and `-0` are merged (they compare equal in Rust, and no
modelled operation divides by a signed zero). Every arithmetic operation is the exact rational operation
followed by `rnd`, round-to-nearest-ties-to-even with gradual underflow and overflow to infinity.
-/
namespace Verif

/-- A binary floating point format: precision (bits), exponent of the least subnormal, overflow exponent.
IEEE-754; the formats used in mod.rs 86-161, 259-288. -/
structure Fmt where
  prec : Nat
  emin : Int
  emax : Int

/-- Rust `f64`. mod.rs 118-161. -/
def b64 : Fmt := ⟨53, -1074, 1024⟩
/-- Rust `f32`. mod.rs 86-103. -/
def b32 : Fmt := ⟨24, -149, 128⟩

/-- A floating point value (of either format). mod.rs 86-161, 259-288. -/
inductive Fl where
  | nan
  | ninf
  | pinf
  | fin (q : ℚ)
deriving DecidableEq

/-- Round a rational to the nearest integer, ties to even.
IEEE-754 6.3 (hardware), for the operations of mod.rs 86-161. -/
def rne (q : ℚ) : ℤ :=
  if q - ⌊q⌋ < 1 / 2 then ⌊q⌋
  else if 1 / 2 < q - ⌊q⌋ then ⌊q⌋ + 1
  else if ⌊q⌋ % 2 = 0 then ⌊q⌋ else ⌊q⌋ + 1

/-- Exponent of the unit in the last place used to round a non-zero `q`.
IEEE-754 (hardware), for the operations of mod.rs 86-161. -/
def ulpExp (f : Fmt) (q : ℚ) : ℤ := max (Int.log 2 |q| - (f.prec - 1)) f.emin

/-- Rounding with unbounded range. IEEE-754 (hardware), for the operations of mod.rs 86-161. -/
def rndQ (f : Fmt) (q : ℚ) : ℚ :=
  if q = 0 then 0 else rne (q / (2 : ℚ) ^ ulpExp f q) * (2 : ℚ) ^ ulpExp f q

/-- Rounding with overflow. IEEE-754 (hardware), for the operations of mod.rs 86-161. -/
def rnd (f : Fmt) (q : ℚ) : Fl :=
  if (2 : ℚ) ^ f.emax ≤ rndQ f q then .pinf
  else if rndQ f q ≤ -(2 : ℚ) ^ f.emax then .ninf
  else .fin (rndQ f q)

namespace Fl

/-- Rust `n as f64` / `n as f32` for an unsigned integer. mod.rs 94, 129, 150, 279. -/
def ofNat (f : Fmt) (n : Nat) : Fl := rnd f n

/-- Rust `a / b`. mod.rs 94, 129, minhash_index.rs 489. -/
def div (f : Fmt) : Fl → Fl → Fl
  | fin a, fin b =>
      if b = 0 then (if a = 0 then nan else if 0 < a then pinf else ninf) else rnd f (a / b)
  | fin _, pinf => fin 0
  | fin _, ninf => fin 0
  | pinf, fin b => if 0 ≤ b then pinf else ninf
  | ninf, fin b => if 0 ≤ b then ninf else pinf
  | _, _ => nan

/-- Rust `a - b`. mod.rs 102, 137, 271-273. -/
def sub (f : Fmt) : Fl → Fl → Fl
  | fin a, fin b => rnd f (a - b)
  | fin _, pinf => ninf
  | fin _, ninf => pinf
  | pinf, fin _ => pinf
  | ninf, fin _ => ninf
  | pinf, ninf => pinf
  | ninf, pinf => ninf
  | _, _ => nan

/-- Rust `a * b`. mod.rs 150, minhash_index.rs 491. -/
def mul (f : Fmt) : Fl → Fl → Fl
  | fin a, fin b => rnd f (a * b)
  | fin a, pinf => if a = 0 then nan else if 0 < a then pinf else ninf
  | fin a, ninf => if a = 0 then nan else if 0 < a then ninf else pinf
  | pinf, fin b => if b = 0 then nan else if 0 < b then pinf else ninf
  | ninf, fin b => if b = 0 then nan else if 0 < b then ninf else pinf
  | pinf, pinf => pinf
  | ninf, ninf => pinf
  | pinf, ninf => ninf
  | ninf, pinf => ninf
  | _, _ => nan

/-- Rust `a.partial_cmp(&b)`. minhash_index.rs 543, 637, 656. -/
def cmp : Fl → Fl → Option Ordering
  | nan, _ => none
  | _, nan => none
  | fin a, fin b => some (compare a b)
  | ninf, ninf => some .eq
  | pinf, pinf => some .eq
  | ninf, _ => some .lt
  | _, ninf => some .gt
  | pinf, _ => some .gt
  | _, pinf => some .lt

/-- Rust `a < b`. minhash_index.rs 490. -/
def lt (a b : Fl) : Bool := cmp a b == some .lt
/-- Rust `a > b`. mod.rs 279, minhash_index.rs 542. -/
def gt (a b : Fl) : Bool := cmp a b == some .gt
/-- Rust `a >= b`. minhash_index.rs 556, 592, 633. -/
def ge (a b : Fl) : Bool := cmp a b == some .gt || cmp a b == some .eq

/-- A total comparison that agrees with `partial_cmp` on non-NaN values (NaN is put first). Used only after
the model has checked that no NaN is compared. minhash_index.rs 543, 637, 656. -/
def tcmp (a b : Fl) : Ordering :=
  match a, b with
  | nan, nan => .eq
  | nan, _ => .lt
  | _, nan => .gt
  | a, b => (cmp a b).getD .eq

/-- Rust saturating cast `x as uN` with `max = uN::MAX` (`nan` becomes 0). mod.rs 150. -/
def toUnsigned (max : Nat) : Fl → Nat
  | nan => 0
  | ninf => 0
  | pinf => max
  | fin q => min ⌊q⌋.toNat max

end Fl
end Verif
