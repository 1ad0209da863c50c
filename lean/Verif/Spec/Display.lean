/-!
# What printed forms should look like

Independent of the model: decimal numerals and the layout of the printed index.
-/
namespace Verif.Spec

/-- `cs` is the decimal numeral of `n`, without leading zeros. -/
def IsNumeral (n : Nat) (cs : List Char) : Prop :=
  cs ≠ [] ∧ (∀ c ∈ cs, '0' ≤ c ∧ c ≤ '9') ∧ (cs.head? = some '0' → cs = ['0']) ∧
    cs.foldl (fun v c => 10 * v + (c.toNat - '0'.toNat)) 0 = n

/-- The text that shows a type name, a threshold (as printed), `b` bands of `r` rows and `n` documents. -/
def IndexText (ty threshold : List Char) (b r n : Nat) (txt : List Char) : Prop :=
  ∃ hashes bands rows size, IsNumeral (b * r) hashes ∧ IsNumeral b bands ∧ IsNumeral r rows ∧ IsNumeral n size ∧
    txt = "MinHashIndex<".toList ++ ty ++ "> { threshold = ".toList ++ threshold ++ ", num_hashes = ".toList ++ hashes ++
      ", bands = ".toList ++ bands ++ ", rows_per_band = ".toList ++ rows ++ ", size = ".toList ++ size ++ " }".toList

end Verif.Spec
