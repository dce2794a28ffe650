import Verif.Model.Sched
import Mathlib.Data.Rat.Floor
import Mathlib.Algebra.Order.Floor.Ring
import Mathlib.Tactic.Linarith
import Mathlib.Tactic.Positivity
import Mathlib.Tactic.FieldSimp
import Mathlib.Tactic.Ring
/-
sched.py:74 divides in floating point: the model's exact division is what it computes.
-/
namespace Whale.Props
open Whale

/-- What Python says about dividing ints: the quotient is rounded correctly to a double, that is: rounding keeps the order, keeps integers of up to 53 bits, and changes a number of usual size by at most one part in 2^53. -/
structure Rounds (rd : ℚ → ℚ) : Prop where
  mono : Monotone rd
  exact : ∀ n : ℤ, |n| ≤ 2 ^ 53 → rd n = n
  near : ∀ q : ℚ, 1 / 2 ^ 1000 ≤ q → q ≤ 2 ^ 1000 → |rd q - q| ≤ q / 2 ^ 53

/-- C53, C68: for every loop of fewer than 2^53 iterations, `math.ceil(extent / factor)` computed with floating point division is the number of blocks of `factor` iterations that the loop needs. -/
theorem C53_ceil {rd : ℚ → ℚ} (h : Rounds rd) {e f : Int} (he : 0 ≤ e) (he' : e < 2 ^ 53) (hf : 0 < f) (hf' : f ≤ 2 ^ 1000) :
    ⌈rd ((e : ℚ) / f)⌉ = Sched.ceilDiv e f ∧ (Sched.ceilDiv e f - 1) * f < e ∧ e ≤ Sched.ceilDiv e f * f := by
  have hc1 : (Sched.ceilDiv e f - 1) * f < e := by
    unfold Sched.ceilDiv
    have := Int.lt_ediv_add_one_mul_self (-e) hf
    linarith
  have hc2 : e ≤ Sched.ceilDiv e f * f := by
    unfold Sched.ceilDiv
    have := Int.ediv_mul_le (-e) (ne_of_gt hf)
    linarith
  refine ⟨?_, hc1, hc2⟩
  generalize Sched.ceilDiv e f = c at hc1 hc2
  have hfq : (0 : ℚ) < f := by exact_mod_cast hf
  have hc0 : 0 ≤ c := by
    by_contra hn
    have : c * f < 0 := Int.mul_neg_of_neg_of_pos (by omega) hf
    omega
  have hce : c ≤ 2 ^ 53 := by
    by_contra hn
    have h1 : (c - 1) * 1 ≤ (c - 1) * f := Int.mul_le_mul_of_nonneg_left (by omega) (by omega)
    omega
  have hc2q : (e : ℚ) / f ≤ c := by
    rw [div_le_iff₀ hfq]; exact_mod_cast hc2
  have hup : rd ((e : ℚ) / f) ≤ c := by
    have := h.mono hc2q
    rwa [h.exact c (by rw [abs_of_nonneg hc0]; exact hce)] at this
  have hlow : ((c - 1 : ℤ) : ℚ) < rd ((e : ℚ) / f) := by
    rcases Int.lt_or_eq_of_le he with hpos | h0
    · have hq0 : (1 : ℚ) / 2 ^ 1000 ≤ (e : ℚ) / f := by
        rw [div_le_div_iff₀ (by positivity) hfq]
        have h1 : (f : ℚ) ≤ 2 ^ 1000 := by exact_mod_cast hf'
        have h2 : (1 : ℚ) ≤ e := by exact_mod_cast hpos
        rw [one_mul]
        exact h1.trans (le_mul_of_one_le_left (by positivity) h2)
      have he53 : (e : ℚ) < 2 ^ 53 := by exact_mod_cast he'
      have hq1 : (e : ℚ) / f ≤ 2 ^ 1000 := by
        have h1 : (e : ℚ) / f ≤ e := div_le_self (by exact_mod_cast he) (by exact_mod_cast hf)
        have h2 : (2 : ℚ) ^ 53 ≤ 2 ^ 1000 := pow_le_pow_right₀ (by norm_num) (by norm_num)
        exact (h1.trans (le_of_lt he53)).trans h2
      have hn := (abs_le.1 (h.near _ hq0 hq1)).1
      -- the quotient is above the next integer below by at least one part in `f`, and is rounded by less than that
      have h1 : ((c - 1 : ℤ) : ℚ) * f + 1 ≤ e := by exact_mod_cast hc1
      have h2 : ((c - 1 : ℤ) : ℚ) + 1 / f ≤ (e : ℚ) / f := by
        rw [le_div_iff₀ hfq, add_mul, div_mul_cancel₀ _ (ne_of_gt hfq)]; exact h1
      have h3 : (e : ℚ) / f / 2 ^ 53 < 1 / f := by
        rw [div_div, mul_comm, ← div_div]
        apply div_lt_div_of_pos_right _ hfq
        rw [div_lt_one (by positivity)]; exact he53
      linarith
    · subst h0
      have : rd (((0 : ℤ) : ℚ) / f) = 0 := by
        have := h.exact 0 (by norm_num)
        simpa using this
      rw [this]
      have : c = 0 := by
        by_contra hne
        have h1 : 0 ≤ (c - 1) * f := Int.mul_nonneg (by omega) (le_of_lt hf)
        omega
      subst this
      norm_num
  rw [Int.ceil_eq_iff]
  refine ⟨?_, hup⟩
  have : ((c - 1 : ℤ) : ℚ) = (c : ℚ) - 1 := by push_cast; ring
  linarith

/-- A rounding that is not exact: fractions are cut off after 53 binary places above 1. -/
def cut (q : ℚ) : ℚ := if q < 1 then q else (⌊q * 2 ^ 53⌋ : ℚ) / 2 ^ 53

theorem cut_rounds : Rounds cut := by
  have hp : (0 : ℚ) < 2 ^ 53 := by positivity
  have hle : ∀ q : ℚ, (⌊q * 2 ^ 53⌋ : ℚ) / 2 ^ 53 ≤ q := fun q => by rw [div_le_iff₀ hp]; exact Int.floor_le _
  have hge : ∀ q : ℚ, q - 1 / 2 ^ 53 ≤ (⌊q * 2 ^ 53⌋ : ℚ) / 2 ^ 53 := fun q => by
    rw [le_div_iff₀ hp, sub_mul, div_mul_cancel₀ _ (ne_of_gt hp)]
    exact le_of_lt (Int.sub_one_lt_floor _)
  have hone : ∀ q : ℚ, 1 ≤ q → 1 ≤ (⌊q * 2 ^ 53⌋ : ℚ) / 2 ^ 53 := fun q hq => by
    rw [le_div_iff₀ hp, one_mul]
    have : (2 ^ 53 : ℤ) ≤ ⌊q * 2 ^ 53⌋ := by
      rw [Int.le_floor]; push_cast; nlinarith
    exact_mod_cast this
  refine ⟨fun p q hpq => ?_, fun n _ => ?_, fun q hq _ => ?_⟩
  · unfold cut
    split <;> split
    · exact hpq
    · rename_i h1 h2
      have := hone q (not_lt.1 h2); linarith
    · rename_i h1 h2
      linarith [not_lt.1 h1]
    · apply div_le_div_of_nonneg_right _ (le_of_lt hp)
      have : ⌊p * 2 ^ 53⌋ ≤ ⌊q * 2 ^ 53⌋ := Int.floor_le_floor (by nlinarith)
      exact_mod_cast this
  · unfold cut
    split
    · rfl
    · have : ((n : ℚ) * 2 ^ 53) = ((n * 2 ^ 53 : ℤ) : ℚ) := by push_cast; ring
      rw [this, Int.floor_intCast, ← this]
      exact mul_div_cancel_right₀ _ (ne_of_gt hp)
  · unfold cut
    split
    · have : 0 < q := lt_of_lt_of_le (by positivity) hq
      rw [sub_self, abs_zero]; positivity
    · rename_i h
      have h1 := hle q
      have h2 := hge q
      have h3 : 1 / (2 : ℚ) ^ 53 ≤ q / 2 ^ 53 := div_le_div_of_nonneg_right (not_lt.1 h) (le_of_lt hp)
      rw [abs_le]
      constructor <;> linarith

/-- `C53_ceil`: 1000 iterations in blocks of 256, and a loop whose quotient is not a double. -/
example : Rounds cut ∧ Sched.ceilDiv 1000 256 = 4 ∧ cut (1000 / 256) = 1000 / 256 ∧ Sched.ceilDiv 1000 7 = 143 ∧ cut (1000 / 7) ≠ 1000 / 7 := by
  refine ⟨cut_rounds, by decide, ?_, by decide, ?_⟩ <;> norm_num [cut]

end Whale.Props
