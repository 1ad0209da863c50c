import Verif.Model.Fl

/-! # LSH parameter search (`gaoya/src/minhash/mod.rs` 259-288) -/
namespace Verif

/-- The `while b > 1` loop of `calculate_b_and_r` (mod.rs 276-286), with the acceptance test
`proba(b1, r1) > p` as a parameter so that the same loop can be instantiated with floating point and with
real arithmetic. `none` means that the fuel ran out (the loop has not terminated yet). -/
def brLoop (accept : Nat → Nat → Bool) (n : Nat) : Nat → Nat → Nat → Option (Nat × Nat)
  | 0, _, _ => none
  | fuel + 1, b, r =>
    if b > 1 then
      let r1 := r + 1
      let b1 := n / r1
      if accept b1 r1 then brLoop accept n fuel b1 r1 else some (b, r)
    else some (b, r)

/-- `proba`, mod.rs 271-273, on `f64`. `powf` is a parameter: its result is platform dependent. -/
def proba (powf : Fl → Fl → Fl) (s : Fl) (b r : Nat) : Fl :=
  Fl.sub b64 (.fin 1)
    (powf (Fl.sub b64 (.fin 1) (powf s (Fl.ofNat b64 r))) (Fl.ofNat b64 b))

/-- `calculate_b_and_r`, mod.rs 270-287. -/
def calculateBAndR (powf : Fl → Fl → Fl) (s : Fl) (n : Nat) (p : Fl) (fuel : Nat) :
    Option (Nat × Nat) :=
  brLoop (fun b r => Fl.gt (proba powf s b r) p) n fuel n 1

/-- `calculate_minhash_params_with_proba`, mod.rs 264-267. -/
def calculateMinhashParamsWithProba (powf : Fl → Fl → Fl) (s : Fl) (n : Nat) (p : Fl) (fuel : Nat) :=
  calculateBAndR powf s n p fuel

/-- `calculate_minhash_params`, mod.rs 259-262; 0.99 is the nearest `f64`. -/
def calculateMinhashParams (powf : Fl → Fl → Fl) (s : Fl) (n : Nat) (fuel : Nat) :=
  calculateBAndR powf s n (rnd b64 (99 / 100)) fuel

end Verif
