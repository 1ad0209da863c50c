import Verif.Model.SuperMinHash

/-! # Specification vocabulary: randomly drawn shuffles -/
namespace Verif.Spec

/-- The generator, seeded with the hash of a token `t`, shuffles the numbers below `n` into the order `σ t`. -/
def Shuffles {Tok : Type} (n : Nat) (g : SuperRng) (hash : Tok → UInt64) (σ : Tok → Equiv.Perm (Fin n)) : Prop :=
  ∀ t, (g.shuffle (List.range n) (g.seedFromU64 (hash t))).1 = List.ofFn fun j => (σ t j).val

end Verif.Spec
