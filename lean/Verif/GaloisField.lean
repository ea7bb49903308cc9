import Mathlib.Data.Finset.Card
import Mathlib.Order.Interval.Finset.Nat
import Mathlib.Algebra.Field.Basic
import Verif.Galois
/-
The tables and the arithmetic of Galois16: the operations are those of a field.
-/
namespace Verif.Galois

def iter : Nat → Nat → Nat
  | 0, x => x
  | n + 1, x => iter n (step x)

theorem iter_add (m n x : Nat) : iter (n + m) x = iter m (iter n x) := by
  induction n generalizing x with
  | zero => simp [iter]
  | succ n ih => rw [show n + 1 + m = (n + m) + 1 by omega]; exact ih (step x)

theorem iter_succ (n x : Nat) : iter (n + 1) x = step (iter n x) := iter_add 1 n x

/-- The step as a shift and a conditional reduction by the top bit. -/
theorem step_eq (x : Nat) (h : x < 65536) : step x = (x <<< 1) ^^^ (if x.testBit 15 then generator else 0) := by
  have h1 : (x <<< 1) &&& count ≠ 0 ↔ x.testBit 15 = true := by
    have : (x <<< 1) &&& count = if x.testBit 15 then 65536 else 0 := by
      apply Nat.eq_of_testBit_eq
      intro i
      rw [Nat.testBit_and, show count = 2 ^ 16 from rfl, Nat.testBit_two_pow, Nat.testBit_shiftLeft]
      by_cases hi : i = 16
      · subst hi
        cases hx : x.testBit 15 <;> simp [hx] <;> decide
      · have : ¬ (16 = i) := by omega
        cases hx : x.testBit 15 <;> simp [this]
        rw [show (65536 : Nat) = 2 ^ 16 from rfl, Nat.testBit_two_pow]
        simp [this]
    rw [this]
    cases x.testBit 15 <;> simp
  unfold step
  by_cases q : x.testBit 15 = true
  · rw [if_pos (h1.mpr q), if_pos q]
  · rw [if_neg (fun k => q (h1.mp k)), if_neg q, Nat.xor_zero]

theorem step_lt (x : Nat) (h : x < 65536) : step x < 65536 := by
  rw [step_eq x h]
  apply Nat.lt_pow_two_of_testBit (n := 16)
  intro i hi
  rw [Nat.testBit_xor, Nat.testBit_shiftLeft]
  have hx : ∀ j, 16 ≤ j → x.testBit j = false := fun j hj =>
    Nat.testBit_lt_two_pow (Nat.lt_of_lt_of_le (show x < 2 ^ 16 from h) (Nat.pow_le_pow_right (by omega) hj))
  by_cases hi2 : i = 16
  · subst hi2
    cases hb : x.testBit 15 <;> simp [hb] <;> decide
  · have h1 : x.testBit (i - 1) = false := hx _ (by omega)
    have h2 : generator.testBit i = false :=
      Nat.testBit_lt_two_pow (Nat.lt_of_lt_of_le (show generator < 2 ^ 17 by decide) (Nat.pow_le_pow_right (by omega) (by omega)))
    rw [h1]
    split <;> simp [h2]

theorem step_zero : step 0 = 0 := by decide

theorem step_ne_zero (x : Nat) (h : x < 65536) (h0 : x ≠ 0) : step x ≠ 0 := by
  intro e
  rw [step_eq x h] at e
  have hb := congrArg (fun n => Nat.testBit n 0) e
  simp only [Nat.testBit_xor, Nat.testBit_shiftLeft, Nat.zero_testBit] at hb
  by_cases q : x.testBit 15 = true
  · rw [if_pos q] at hb
    rw [show (decide (0 ≥ 1) && x.testBit (0 - 1)) = false from rfl] at hb
    exact absurd hb (by decide)
  · rw [if_neg q, Nat.xor_zero] at e
    have : x <<< 1 = x * 2 := Nat.shiftLeft_eq x 1
    omega

theorem xor_lt16 {x y : Nat} (hx : x < 65536) (hy : y < 65536) : x ^^^ y < 65536 := Nat.xor_lt_two_pow (n := 16) hx hy

theorem step_xor (x y : Nat) (hx : x < 65536) (hy : y < 65536) : step (x ^^^ y) = step x ^^^ step y := by
  rw [step_eq _ (xor_lt16 hx hy), step_eq x hx, step_eq y hy, Nat.shiftLeft_xor_distrib, Nat.testBit_xor]
  cases x.testBit 15 <;> cases y.testBit 15 <;> simp [Nat.xor_assoc]
  · rw [Nat.xor_comm generator]
  · rw [← Nat.xor_assoc generator, Nat.xor_comm generator, Nat.xor_assoc (y <<< 1), Nat.xor_self, Nat.xor_zero]

theorem iter_lt (n x : Nat) (h : x < 65536) : iter n x < 65536 := by
  induction n generalizing x with
  | zero => exact h
  | succ n ih => exact ih _ (step_lt x h)

theorem iter_zero (n : Nat) : iter n 0 = 0 := by
  induction n with
  | zero => rfl
  | succ n ih => show iter n (step 0) = 0; rw [step_zero]; exact ih

theorem iter_ne_zero (n x : Nat) (h : x < 65536) (h0 : x ≠ 0) : iter n x ≠ 0 := by
  induction n generalizing x with
  | zero => exact h0
  | succ n ih => exact ih _ (step_lt x h) (step_ne_zero x h h0)

theorem iter_xor (n x y : Nat) (hx : x < 65536) (hy : y < 65536) : iter n (x ^^^ y) = iter n x ^^^ iter n y := by
  induction n generalizing x y with
  | zero => rfl
  | succ n ih =>
    show iter n (step (x ^^^ y)) = iter n (step x) ^^^ iter n (step y)
    rw [step_xor x y hx hy]; exact ih _ _ (step_lt x hx) (step_lt y hy)

theorem xor_eq_zero {x y : Nat} (h : x ^^^ y = 0) : x = y := by
  have : (x ^^^ y) ^^^ y = 0 ^^^ y := by rw [h]
  rw [Nat.xor_assoc, Nat.xor_self, Nat.xor_zero, Nat.zero_xor] at this
  exact this

theorem iter_inj (n x y : Nat) (hx : x < 65536) (hy : y < 65536) (h : iter n x = iter n y) : x = y := by
  apply Classical.byContradiction
  intro ne
  have : iter n (x ^^^ y) = 0 := by rw [iter_xor n x y hx hy, h, Nat.xor_self]
  exact iter_ne_zero n _ (xor_lt16 hx hy) (fun k => ne (xor_eq_zero k)) this

/-! ### The powers of 2 return to 1 after exactly 65535 steps -/

/-- `n` steps from `x`; 0 if 1 is met before the last of them. -/
def hop : Nat → Nat → Nat
  | 0, x => x
  | n + 1, x => if x = 1 then 0 else hop n (step x)

def hops : Nat → Nat → Nat
  | 0, x => x
  | n + 1, x =>
    match hop 151 x with
    | 0 => 0
    | y + 1 => hops n (y + 1)

theorem hop_ok (n x : Nat) (h : hop n x ≠ 0) : hop n x = iter n x ∧ ∀ i, i < n → iter i x ≠ 1 := by
  induction n generalizing x with
  | zero => exact ⟨rfl, fun i hi => absurd hi (by omega)⟩
  | succ n ih =>
    unfold hop at h ⊢
    by_cases q : x = 1
    · rw [if_pos q] at h; exact absurd rfl h
    · rw [if_neg q] at h ⊢
      obtain ⟨a, b⟩ := ih _ h
      refine ⟨a, fun i hi => ?_⟩
      cases i with
      | zero => exact q
      | succ i => exact b i (by omega)

theorem hops_ok (n x : Nat) (h : hops n x ≠ 0) : hops n x = iter (n * 151) x ∧ ∀ i, i < n * 151 → iter i x ≠ 1 := by
  induction n generalizing x with
  | zero => rw [Nat.zero_mul]; exact ⟨rfl, fun i hi => absurd hi (by omega)⟩
  | succ n ih =>
    unfold hops at h ⊢
    cases e : hop 151 x with
    | zero => rw [e] at h; exact absurd rfl h
    | succ y =>
      rw [e] at h; dsimp only at h ⊢
      obtain ⟨a, b⟩ := ih _ h
      obtain ⟨c, d⟩ := hop_ok 151 x (by rw [e]; omega)
      rw [e] at c
      have f : iter ((n + 1) * 151) x = iter (n * 151) (y + 1) := by
        rw [show (n + 1) * 151 = 151 + n * 151 by omega, iter_add, ← c]
      refine ⟨by rw [f]; exact a, fun i hi => ?_⟩
      by_cases q : i < 151
      · exact d i q
      · have g := b (i - 151) (by omega)
        rw [c, ← iter_add, show 151 + (i - 151) = i by omega] at g
        exact g

set_option maxRecDepth 100000 in
theorem cycle : hops 434 (step 1) = 1 := by decide +kernel

theorem iter_limit : iter 65535 1 = 1 := by
  have h := (hops_ok 434 (step 1) (by rw [cycle]; omega)).1
  rw [cycle, show 434 * 151 = 65534 from rfl] at h
  rw [show 65535 = 1 + 65534 from rfl, iter_add, show iter 1 1 = step 1 from rfl]
  exact h.symm

theorem iter_ne_one (i : Nat) (h0 : 0 < i) (h1 : i < 65535) : iter i 1 ≠ 1 := by
  have h := (hops_ok 434 (step 1) (by rw [cycle]; omega)).2 (i - 1) (by omega)
  rw [show i = 1 + (i - 1) by omega, iter_add, show iter 1 1 = step 1 from rfl]
  exact h

theorem iter_add_limit (i : Nat) : iter (i + 65535) 1 = iter i 1 := by
  rw [Nat.add_comm, iter_add, iter_limit]

theorem iter_mod (i : Nat) : iter (i % 65535) 1 = iter i 1 := by
  induction i using Nat.strongRecOn with
  | ind i ih =>
    by_cases q : i < 65535
    · rw [Nat.mod_eq_of_lt q]
    · have := ih (i - 65535) (by omega)
      rw [show i = (i - 65535) + 65535 by omega, iter_add_limit, Nat.add_mod_right]; exact this

theorem iter_one_inj {i j : Nat} (hi : i < 65535) (hj : j < 65535) (h : iter i 1 = iter j 1) : i = j := by
  have key : ∀ i j, i < j → j < 65535 → iter i 1 ≠ iter j 1 := by
    intro i j hij hj e
    have : iter i 1 = iter i (iter (j - i) 1) := by
      rw [← iter_add, show j - i + i = j by omega]; exact e
    exact iter_ne_one (j - i) (by omega) (by omega) (iter_inj i _ _ (by omega) (iter_lt _ _ (by omega)) this).symm
  rcases Nat.lt_trichotomy i j with q | q | q
  · exact absurd h (key i j q hj)
  · exact q
  · exact absurd h.symm (key j i q hi)

theorem iter_surj {v : Nat} (h0 : v ≠ 0) (h1 : v < 65536) : ∃ i, i < 65535 ∧ iter i 1 = v := by
  have hsub : (Finset.range 65535).image (fun i => iter i 1) ⊆ Finset.Ioo 0 65536 := by
    intro x hx
    obtain ⟨i, _, e⟩ := Finset.mem_image.mp hx
    rw [Finset.mem_Ioo, ← e]
    exact ⟨Nat.pos_of_ne_zero (iter_ne_zero i 1 (by omega) (by omega)), iter_lt i 1 (by omega)⟩
  have hcard : ((Finset.range 65535).image (fun i => iter i 1)).card = 65535 := by
    rw [Finset.card_image_of_injOn, Finset.card_range]
    intro a ha b hb e
    exact iter_one_inj (by simpa using ha) (by simpa using hb) e
  have heq := Finset.eq_of_subset_of_card_le hsub (by rw [hcard, Nat.card_Ioo])
  have hv : v ∈ (Finset.range 65535).image (fun i => iter i 1) := by
    rw [heq, Finset.mem_Ioo]; omega
  obtain ⟨i, hi, e⟩ := Finset.mem_image.mp hv
  exact ⟨i, by simpa using hi, e⟩

/-! ### The tables -/

theorem fill_antilog (n l b : Nat) (t : Table) (j : Nat) :
    (fill n l b t).antilog j = if l ≤ j ∧ j < l + n then UInt16.ofNat (iter (j - l) b) else t.antilog j := by
  induction n generalizing l b t with
  | zero => rw [if_neg (by omega)]; rfl
  | succ n ih =>
    unfold fill
    rw [ih]
    dsimp only
    unfold set
    by_cases q : l + 1 ≤ j ∧ j < l + 1 + n
    · rw [if_pos q, if_pos (by omega), show j - l = (j - (l + 1)) + 1 by omega]; rfl
    · rw [if_neg q]
      by_cases e : j = l
      · subst e; rw [if_pos rfl, if_pos (by omega), Nat.sub_self]; rfl
      · rw [if_neg e, if_neg (by omega)]

theorem fill_log_out (n l b : Nat) (t : Table) (x : Nat) (h : ∀ i, i < n → iter i b ≠ x) : (fill n l b t).log x = t.log x := by
  induction n generalizing l b t with
  | zero => rfl
  | succ n ih =>
    unfold fill
    rw [ih _ _ _ (fun i hi => h (i + 1) (by omega))]
    dsimp only
    unfold set
    rw [if_neg (fun e => h 0 (by omega) e.symm)]

theorem fill_log (n l b : Nat) (t : Table) (hd : ∀ i j, i < j → j < n → iter i b ≠ iter j b) (i : Nat) (hi : i < n) :
    (fill n l b t).log (iter i b) = UInt16.ofNat (l + i) := by
  induction n generalizing l b t i with
  | zero => omega
  | succ n ih =>
    unfold fill
    cases i with
    | zero =>
      rw [fill_log_out]
      · dsimp only; unfold set; rw [if_pos (show iter 0 b = b from rfl)]; rfl
      · intro k hk e
        exact hd 0 (k + 1) (by omega) (by omega) e.symm
    | succ i =>
      have := ih (l + 1) (step b) { log := set t.log b (UInt16.ofNat l), antilog := set t.antilog l (UInt16.ofNat b) }
        (fun a c h1 h2 => hd (a + 1) (c + 1) (by omega) (by omega)) i (by omega)
      rw [show iter (i + 1) b = iter i (step b) from rfl, this]
      congr 1; omega

theorem antilog_eq (i : Nat) (h : i < 65535) : table.antilog i = UInt16.ofNat (iter i 1) := by
  unfold table set limit
  dsimp only
  rw [if_neg (by omega), fill_antilog, if_pos (by omega), Nat.sub_zero]

theorem log_iter (i : Nat) (h : i < 65535) : table.log (iter i 1) = UInt16.ofNat i := by
  unfold table set limit
  dsimp only
  rw [if_neg (iter_ne_zero i 1 (by omega) (by omega)), fill_log, Nat.zero_add]
  · intro a b h1 h2 e
    have := iter_one_inj (by omega) (by omega) e
    omega
  · exact h

attribute [local irreducible] table

/-- The powers of 2. -/
def alpha (i : Nat) : G16 := ⟨UInt16.ofNat (iter i 1)⟩

theorem ofNat_toNat16 {n : Nat} (h : n < 65536) : (UInt16.ofNat n).toNat = n := by
  exact UInt16.toNat_ofNat_of_lt' h

theorem alpha_toNat (i : Nat) : (alpha i).value.toNat = iter i 1 := ofNat_toNat16 (iter_lt i 1 (by omega))

theorem ext {a b : G16} (h : a.value.toNat = b.value.toNat) : a = b := by
  cases a; cases b; congr 1; exact UInt16.toNat_inj.mp h

theorem value_lt (a : G16) : a.value.toNat < 65536 := a.value.toNat_lt

theorem value_eq_zero (a : G16) : a.value = 0 ↔ a = 0 := by
  constructor
  · intro h; cases a; cases h; rfl
  · intro h; rw [h]; rfl

theorem toNat_zero : (0 : G16).value.toNat = 0 := rfl
theorem toNat_one : (1 : G16).value.toNat = 1 := rfl

theorem value_ne_zero {a : G16} (h : a ≠ 0) : a.value.toNat ≠ 0 := by
  intro e; exact h (ext e)

theorem alpha_ne (i : Nat) : alpha i ≠ 0 := by
  intro e
  have := congrArg (fun a => a.value.toNat) e
  rw [alpha_toNat, toNat_zero] at this
  exact iter_ne_zero i 1 (by omega) (by omega) this

theorem alpha_mod (i : Nat) : alpha (i % 65535) = alpha i := by unfold alpha; rw [iter_mod]

theorem alpha_zero : alpha 0 = 1 := rfl

theorem alpha_surj {a : G16} (h : a ≠ 0) : ∃ i, i < 65535 ∧ a = alpha i := by
  obtain ⟨i, h1, h2⟩ := iter_surj (value_ne_zero h) (value_lt a)
  exact ⟨i, h1, ext (by rw [alpha_toNat, h2])⟩

theorem alpha_inj {i j : Nat} (hi : i < 65535) (hj : j < 65535) (h : alpha i = alpha j) : i = j := by
  have := congrArg (fun a => a.value.toNat) h
  rw [alpha_toNat, alpha_toNat] at this
  exact iter_one_inj hi hj this

theorem log_alpha {i : Nat} (h : i < 65535) : (table.log (alpha i).value.toNat).toNat = i := by
  rw [alpha_toNat, log_iter i h, ofNat_toNat16 (by omega)]

theorem antilog_alpha {i : Nat} (h : i < 65535) : (⟨table.antilog i⟩ : G16) = alpha i := by
  rw [antilog_eq i h]; rfl

theorem mul_def (a b : G16) : a * b = mul a b := rfl
theorem div_def (a b : G16) : a / b = div a b := rfl

theorem mul_alpha (i j : Nat) : alpha i * alpha j = alpha (i + j) := by
  rw [← alpha_mod i, ← alpha_mod j, ← alpha_mod (i + j), Nat.add_mod]
  have hi := Nat.mod_lt i (show 0 < 65535 by omega)
  have hj := Nat.mod_lt j (show 0 < 65535 by omega)
  generalize i % 65535 = i at hi ⊢
  generalize j % 65535 = j at hj ⊢
  rw [mul_def]
  unfold mul
  rw [if_neg (by rw [value_eq_zero, value_eq_zero]; exact fun h => h.elim (alpha_ne i) (alpha_ne j)), log_alpha hi, log_alpha hj]
  dsimp only
  unfold limit
  by_cases q : i + j ≥ 65535
  · rw [if_pos q, antilog_alpha (by omega), Nat.mod_eq_sub_mod q, Nat.mod_eq_of_lt (by omega)]
  · rw [if_neg q, antilog_alpha (by omega), Nat.mod_eq_of_lt (by omega)]

theorem mul_zero' (a : G16) : a * 0 = 0 := by
  rw [mul_def]; unfold mul; rw [if_pos (Or.inr (show G16.value 0 = 0 from rfl))]; rfl

theorem zero_mul' (a : G16) : 0 * a = 0 := by
  rw [mul_def]; unfold mul; rw [if_pos (Or.inl (show G16.value 0 = 0 from rfl))]; rfl

theorem mul_comm' (a b : G16) : a * b = b * a := by
  by_cases ha : a = 0
  · rw [ha, mul_zero', zero_mul']
  by_cases hb : b = 0
  · rw [hb, mul_zero', zero_mul']
  obtain ⟨i, _, rfl⟩ := alpha_surj ha
  obtain ⟨j, _, rfl⟩ := alpha_surj hb
  rw [mul_alpha, mul_alpha, Nat.add_comm]

theorem mul_assoc' (a b c : G16) : a * b * c = a * (b * c) := by
  by_cases ha : a = 0
  · simp only [ha, zero_mul']
  by_cases hb : b = 0
  · simp only [hb, zero_mul', mul_zero']
  by_cases hc : c = 0
  · simp only [hc, mul_zero']
  obtain ⟨i, _, rfl⟩ := alpha_surj ha
  obtain ⟨j, _, rfl⟩ := alpha_surj hb
  obtain ⟨k, _, rfl⟩ := alpha_surj hc
  rw [mul_alpha, mul_alpha, mul_alpha, mul_alpha, Nat.add_assoc]

theorem one_mul' (a : G16) : 1 * a = a := by
  by_cases ha : a = 0
  · rw [ha, mul_zero']
  obtain ⟨i, _, rfl⟩ := alpha_surj ha
  rw [← alpha_zero, mul_alpha, Nat.zero_add]

/-- The product with a power of 2 is that number of steps. -/
theorem alpha_mul_toNat (i : Nat) (b : G16) : (alpha i * b).value.toNat = iter i b.value.toNat := by
  by_cases hb : b = 0
  · rw [hb, mul_zero', toNat_zero, iter_zero]
  obtain ⟨j, _, rfl⟩ := alpha_surj hb
  rw [mul_alpha, alpha_toNat, alpha_toNat, Nat.add_comm, iter_add]

theorem add_toNat (a b : G16) : (a + b).value.toNat = a.value.toNat ^^^ b.value.toNat := UInt16.toNat_xor a.value b.value

theorem left_distrib' (a b c : G16) : a * (b + c) = a * b + a * c := by
  by_cases ha : a = 0
  · rw [ha, zero_mul', zero_mul', zero_mul']; rfl
  obtain ⟨i, _, rfl⟩ := alpha_surj ha
  apply ext
  rw [alpha_mul_toNat, add_toNat, add_toNat, alpha_mul_toNat, alpha_mul_toNat, iter_xor _ _ _ (value_lt b) (value_lt c)]

theorem add_assoc' (a b c : G16) : a + b + c = a + (b + c) := by
  apply ext; simp only [add_toNat, Nat.xor_assoc]

theorem add_comm' (a b : G16) : a + b = b + a := by
  apply ext; simp only [add_toNat]; exact Nat.xor_comm _ _

theorem zero_add' (a : G16) : 0 + a = a := by
  apply ext; rw [add_toNat, toNat_zero, Nat.zero_xor]

theorem add_self' (a : G16) : a + a = 0 := by
  apply ext; rw [add_toNat, Nat.xor_self]; rfl

theorem div_alpha (i j : Nat) (hi : i < 65535) (hj : j < 65535) : alpha i / alpha j * alpha j = alpha i := by
  rw [div_def]
  unfold div
  rw [if_neg (by rw [value_eq_zero]; exact alpha_ne i), if_neg (by rw [value_eq_zero]; exact alpha_ne j), log_alpha hi, log_alpha hj]
  dsimp only
  unfold limit
  by_cases q : (i : Int) - j < 0
  · rw [if_pos q, antilog_alpha (by omega), mul_alpha, ← alpha_mod]
    congr 1
    omega
  · rw [if_neg q, antilog_alpha (by omega), mul_alpha]
    congr 1
    omega

theorem div_mul' (a b : G16) (hb : b ≠ 0) : a / b * b = a := by
  by_cases ha : a = 0
  · rw [ha, div_def]; unfold div; rw [if_pos (show G16.value 0 = 0 from rfl)]; exact zero_mul' b
  obtain ⟨i, hi, rfl⟩ := alpha_surj ha
  obtain ⟨j, hj, rfl⟩ := alpha_surj hb
  exact div_alpha i j hi hj

theorem div_zero' (a : G16) : a / 0 = 0 := by
  rw [div_def]; unfold div
  by_cases q : a.value = 0
  · rw [if_pos q]; rfl
  · rw [if_neg q, if_pos (show G16.value 0 = 0 from rfl)]; rfl

instance : Neg G16 := ⟨fun a => a⟩
instance : Inv G16 := ⟨fun a => 1 / a⟩

theorem inv_def (a : G16) : a⁻¹ = 1 / a := rfl
theorem neg_def (a : G16) : -a = a := rfl

theorem mul_inv' (a : G16) (h : a ≠ 0) : a * a⁻¹ = 1 := by
  rw [mul_comm', inv_def]; exact div_mul' 1 a h

theorem div_eq' (a b : G16) : a / b = a * b⁻¹ := by
  by_cases hb : b = 0
  · rw [hb, div_zero', inv_def, div_zero', mul_zero']
  · have h : a / b * b * b⁻¹ = a * b⁻¹ := by rw [div_mul' a b hb]
    rw [mul_assoc', mul_inv' b hb, mul_comm', one_mul'] at h
    exact h

/-- The operations of the program make the values of 16 bits a field. -/
instance field : Field G16 where
  add := add
  add_assoc := add_assoc'
  zero := 0
  zero_add := zero_add'
  add_zero a := by rw [add_comm']; exact zero_add' a
  nsmul := nsmulRec
  neg a := a
  sub := sub
  sub_eq_add_neg _ _ := rfl
  zsmul := zsmulRec
  neg_add_cancel := add_self'
  add_comm := add_comm'
  mul := mul
  mul_assoc := mul_assoc'
  one := 1
  one_mul := one_mul'
  mul_one a := by rw [mul_comm']; exact one_mul' a
  left_distrib := left_distrib'
  right_distrib a b c := by rw [mul_comm', left_distrib', mul_comm' c a, mul_comm' c b]
  zero_mul := zero_mul'
  mul_zero := mul_zero'
  mul_comm := mul_comm'
  inv a := 1 / a
  div := div
  div_eq_mul_inv := div_eq'
  exists_pair_ne := ⟨0, 1, by intro h; exact absurd (congrArg (fun a => a.value.toNat) h) (by decide)⟩
  mul_inv_cancel := mul_inv'
  inv_zero := div_zero' 1
  nnqsmul := _
  nnqsmul_def := fun _ _ => rfl
  qsmul := _
  qsmul_def := fun _ _ => rfl

end Verif.Galois
