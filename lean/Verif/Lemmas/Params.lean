import Verif.Model.Params
import Mathlib.Tactic.Common

namespace Verif

/-- Termination and shape of the search loop, with the reason why it stopped. -/
theorem brLoop_spec (accept : Nat → Nat → Bool) (n : Nat) :
    ∀ (fuel r : Nat), 1 ≤ r → r ≤ n → n < fuel + r →
    ∃ r', brLoop accept n fuel (n / r) r = some (n / r', r') ∧ r ≤ r' ∧ r' ≤ n ∧
      (∀ k, r < k → k ≤ r' → accept (n / k) k = true ∧ 1 < n / (k - 1)) ∧
      (n / r' ≤ 1 ∨ accept (n / (r' + 1)) (r' + 1) = false) := by
  intro fuel
  induction fuel with
  | zero => intro r h1 h2 h3; omega
  | succ fuel ih =>
    intro r h1 h2 h3
    unfold brLoop
    by_cases hb : n / r > 1
    · rw [if_pos hb]
      simp only
      have hr1 : r + 1 ≤ n := by
        have : 2 * r ≤ n := by
          have := (Nat.le_div_iff_mul_le (by omega)).mp (show 2 ≤ n / r from hb)
          exact this
        omega
      by_cases ha : accept (n / (r + 1)) (r + 1) = true
      · rw [if_pos ha]
        obtain ⟨r', e, h4, h5, h6, h7⟩ := ih (r + 1) (by omega) hr1 (by omega)
        refine ⟨r', e, by omega, h5, ?_, h7⟩
        intro k hk1 hk2
        by_cases hk : k = r + 1
        · subst hk
          exact ⟨ha, by simpa using hb⟩
        · exact h6 k (by omega) hk2
      · rw [if_neg ha]
        exact ⟨r, rfl, le_refl _, h2, by intro k hk1 hk2; omega, Or.inr (by simpa using ha)⟩
    · rw [if_neg hb]
      exact ⟨r, rfl, le_refl _, h2, by intro k hk1 hk2; omega, Or.inl (by omega)⟩

end Verif
