import Verif.GaloisField
import Verif.ReedSolomonSpec
/-
The arithmetic of the repairer is that of polynomials modulo the polynomial of the format.
-/
namespace Verif.Galois
open Verif.RsSpec

attribute [local irreducible] table

theorem toNat_ofValue {n : Nat} (h : n < 65536) : (ofValue n).value.toNat = n := ofNat_toNat16 h

theorem ofValue_toNat (a : G16) : ofValue a.value.toNat = a := ext (toNat_ofValue (value_lt a))

theorem xtimes_step (x : Nat) (h : x < 65536) : xtimes x = step x := by
  rw [step_eq x h]
  unfold xtimes
  have hb : x.testBit 15 = decide (x / 2 ^ 15 % 2 = 1) := Nat.testBit_eq_decide_div_mod_eq
  rw [Nat.shiftLeft_eq, hb, Nat.mul_comm x]
  by_cases q : x < 32768
  · rw [if_pos q, if_neg (by simp only [decide_eq_true_eq]; omega), Nat.xor_zero, Nat.pow_one]
  · rw [if_neg q, if_pos (by simp only [decide_eq_true_eq]; omega), Nat.pow_one]; rfl

theorem alpha_one_mul (a : G16) : (alpha 1 * a).value.toNat = step a.value.toNat := alpha_mul_toNat 1 a

theorem low_bit (b : Nat) : b % 2 ^^^ 2 * (b / 2) = b := by
  apply Nat.eq_of_testBit_eq
  intro i
  rw [Nat.testBit_xor]
  cases i with
  | zero => simp only [Nat.testBit_zero]; rcases Nat.mod_two_eq_zero_or_one b with h | h <;> simp [h]
  | succ i =>
    rw [Nat.testBit_succ, Nat.testBit_succ, Nat.testBit_succ, show b % 2 / 2 = 0 by omega, show 2 * (b / 2) / 2 = b / 2 by omega]
    simp

theorem productBits_eq (n a b : Nat) (hn : n ≤ 16) (ha : a < 65536) (hb : b < 2 ^ n) :
    productBits n a b = (ofValue a * ofValue b).value.toNat := by
  induction n generalizing a b with
  | zero =>
    have : b = 0 := by simpa using hb
    rw [this]
    show 0 = (ofValue a * 0).value.toNat
    rw [mul_zero']; rfl
  | succ n ih =>
    have hp : 2 ^ (n + 1) = 2 * 2 ^ n := by rw [Nat.pow_succ, Nat.mul_comm]
    have hb2 : b < 65536 := Nat.lt_of_lt_of_le hb (show 2 ^ (n + 1) ≤ 2 ^ 16 from Nat.pow_le_pow_right (by omega) hn)
    rw [productBits, ih (xtimes a) (b / 2) (by omega) (by rw [xtimes_step a ha]; exact step_lt a ha) (by omega), xtimes_step a ha]
    have e1 : ofValue (step a) = alpha 1 * ofValue a := by
      apply ext
      rw [alpha_one_mul, toNat_ofValue ha, toNat_ofValue (step_lt a ha)]
    have e2 : ofValue b = ofValue (b % 2) + alpha 1 * ofValue (b / 2) := by
      apply ext
      rw [add_toNat, alpha_one_mul, toNat_ofValue hb2, toNat_ofValue (by omega), toNat_ofValue (by omega),
        ← xtimes_step _ (by omega)]
      unfold xtimes
      rw [if_pos (by omega), low_bit]
    rw [e1, e2, left_distrib', add_toNat, mul_comm' (alpha 1) (ofValue a), mul_assoc']
    congr 1
    rcases Nat.mod_two_eq_zero_or_one b with h | h
    · rw [h, if_neg (by omega), show ofValue 0 = 0 from rfl, mul_zero']; rfl
    · rw [h, if_pos rfl, show ofValue 1 = 1 from rfl, mul_comm', one_mul', toNat_ofValue ha]

/-- The multiplication with the tables is the multiplication of polynomials. -/
theorem mul_spec (a b : G16) : (a * b).value.toNat = product a.value.toNat b.value.toNat := by
  unfold product
  rw [productBits_eq 16 _ _ (by omega) (value_lt a) (value_lt b), ofValue_toNat, ofValue_toNat]

/-- A quotient times the divisor is the dividend. -/
theorem div_spec (a b : G16) (hb : b.value.toNat ≠ 0) : product (a / b).value.toNat b.value.toNat = a.value.toNat := by
  rw [← mul_spec, div_mul' a b (fun h => hb (by rw [h]; rfl))]

theorem alpha_pow (i n : Nat) : (alpha i) ^ n = alpha (i * n) := by
  induction n with
  | zero => rw [pow_zero, Nat.mul_zero]; rfl
  | succ n ih => rw [pow_succ, ih]; exact mul_alpha (i * n) i

theorem fold_mod (lg right : Nat) (h1 : lg < 65535) (h2 : right < 65536) :
    fold lg right ≤ 131068 ∧ fold lg right % 65535 = lg * right % 65535 := by
  have hle : lg * right ≤ 65534 * 65535 := Nat.mul_le_mul (by omega) (by omega)
  unfold fold limit
  dsimp only
  rw [Nat.mod_eq_of_lt (by omega), Nat.shiftRight_eq_div_pow, show (65535 : Nat) = 2 ^ 16 - 1 from rfl, Nat.and_two_pow_sub_one_eq_mod]
  generalize lg * right = m at hle ⊢
  omega

theorem fold_zero_bound (lg right : Nat) (h1 : lg < 65535) (h2 : right < 65536) : fold lg right - 65535 < 65535 := by
  have := (fold_mod lg right h1 h2).1; omega

/-- The power with the tables is the power of the field. -/
theorem pow_eq (a : G16) (n : Nat) (hn : n < 65536) : Galois.pow a n = a ^ n := by
  unfold Galois.pow
  by_cases h0 : n = 0
  · rw [if_pos h0, h0, pow_zero]; rfl
  rw [if_neg h0]
  by_cases ha : a = 0
  · rw [if_pos ((value_eq_zero a).mpr ha), ha, zero_pow h0]; rfl
  rw [if_neg (fun h => ha ((value_eq_zero a).mp h))]
  obtain ⟨i, hi, rfl⟩ := alpha_surj ha
  dsimp only
  rw [log_alpha hi, alpha_pow]
  obtain ⟨f1, f2⟩ := fold_mod i n hi hn
  unfold limit
  by_cases q : fold i n ≥ 65535
  · rw [if_pos q, antilog_alpha (by omega), ← alpha_mod (i * n), ← f2, ← alpha_mod (fold i n - 65535)]
    exact congrArg alpha (by omega)
  · rw [if_neg q, antilog_alpha (by omega), ← alpha_mod (i * n), ← f2, alpha_mod]

theorem power_eq (a : G16) (n : Nat) : power a.value.toNat n = (a ^ n).value.toNat := by
  induction n with
  | zero => rw [pow_zero]; rfl
  | succ n ih => rw [power, ih, ← mul_spec, pow_succ]; exact congrArg (fun x => x.value.toNat) (mul_comm' a (a ^ n))

/-- The power with the tables is the repeated multiplication of polynomials. -/
theorem pow_spec (a : G16) (n : Nat) (hn : n < 65536) : (Galois.pow a n).value.toNat = power a.value.toNat n := by
  rw [pow_eq a n hn, power_eq]

/-- Not every pair of factors is trivial: 2^15 · 2 wraps around, and the product of the two largest elements. -/
example : product 0x8000 2 = 0x100B ∧ product 0xFFFF 0xFFFF = 0x733 ∧ power 2 16 = 0x100B := by decide +kernel

end Verif.Galois
