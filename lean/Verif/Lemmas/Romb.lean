import Mathlib.Tactic
import Mathlib.Algebra.BigOperators.Group.Finset.Basic
import Mathlib.Algebra.Order.BigOperators.Ring.Finset
import Verif.Model.BandFuncs

/-! # Romberg's rule with 65 samples as a positive linear functional -/

namespace TEflow.Bandlib

/-- the weights of Romberg's rule with 65 samples -/
def rombW (i : Nat) : ℚ :=
  if i % 64 = 0 then 607287584 / 1993723875
  else if i % 32 = 0 then 22777033088 / 37388476125
  else if i % 16 = 0 then 614979951616 / 1009488855375
  else if i % 8 = 0 then 614948175872 / 1009488855375
  else if i % 4 = 0 then 1857191673856 / 3028466566125
  else if i % 2 = 0 then 1466731331584 / 3028466566125
  else 4398046511104 / 3028466566125

theorem rombW_pos (i : Nat) : 0 < rombW i := by
  unfold rombW
  split_ifs <;> norm_num

section
variable {R : Type} [Field R] [CharZero R]

theorem rombR_six (T : Nat → R) : rombR T 6 6 = 1 / 3028466566125 * T 0 - 4 / 2218656825 * T 1 + 64 / 32531625 * T 2 -
    4096 / 8037225 * T 3 + 1048576 / 32531625 * T 4 - 1073741824 / 2218656825 * T 5 +
    4398046511104 / 3028466566125 * T 6 := by
  simp only [rombR]
  norm_num
  ring

set_option maxRecDepth 4000 in
theorem romb_eq_sum (y : Nat → R) : romb 6 y = ∑ i ∈ Finset.range 65, (rombW i : R) * y i := by
  unfold romb
  rw [rombR_six]
  simp only [rombT, List.range_succ, List.range_zero, Nat.reducePow, Nat.reduceAdd, Nat.reduceSub, List.nil_append,
    List.singleton_append, List.map_append, List.map_cons, List.map_nil, List.cons_append, List.sum_append, List.sum_cons,
    List.sum_nil, Nat.reduceMul, zero_add, mul_zero, add_zero]
  simp only [Finset.sum_range_succ, Finset.sum_range_zero, rombW]
  norm_num
  ring

end

end TEflow.Bandlib
