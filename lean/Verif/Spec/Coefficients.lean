import Verif.Model.MinHasher

/-! # Specification vocabulary: randomly drawn coefficients -/
namespace Verif.Spec

/-- The coefficients of one component for the modulus `p`: the slope less one, and the intercept. -/
abbrev Coeff (p : Nat) : Type := Fin (p - 1) × Fin p

/-- `Drawn g lo hi s xs s'`: successive samples from `[lo, hi)`, each taken from the state left by the one before
it, starting in state `s`, give the values `xs` and leave the state `s'`. -/
inductive Drawn (g : Rng) (lo hi : Nat) : g.State → List Nat → g.State → Prop
  | done (s : g.State) : Drawn g lo hi s [] s
  | next {s s' : g.State} {xs : List Nat} (rest : Drawn g lo hi (g.uniform lo hi s).2 xs s') :
      Drawn g lo hi s ((g.uniform lo hi s).1 :: xs) s'

/-- The generator, with this seed, draws the slopes `a` and then, going on from there, the intercepts `b`. -/
def DrawsLists (g : Rng) (p : Nat) (seed : UInt64) (a b : List Nat) : Prop :=
  ∃ s1 s2, Drawn g 1 p (g.seedFromU64 seed) a s1 ∧ Drawn g 0 p s1 b s2

/-- The generator, with this seed, draws the slopes and then the intercepts `ω`. -/
def Draws (p n : Nat) (g : Rng) (seed : UInt64) (ω : Fin n → Coeff p) : Prop :=
  DrawsLists g p seed (List.ofFn fun i => (ω i).1.val + 1) (List.ofFn fun i => (ω i).2.val)

end Verif.Spec
