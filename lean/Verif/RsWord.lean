import Verif.GaloisProps
import Verif.ReedSolomon
/-
The multiplication of a buffer with the tables of Process, and the choice of the constants of the blocks by SetInput.
-/
namespace Verif.Rs
open Verif.Galois Verif.RsSpec

attribute [local irreducible] table

theorem split16 (v : Nat) (h : v < 65536) : (v &&& 0xff) ^^^ (((v >>> 8) &&& 0xff) <<< 8) = v := by
  apply Nat.eq_of_testBit_eq
  intro i
  rw [Nat.testBit_xor, Nat.testBit_shiftLeft, Nat.testBit_and, Nat.testBit_and, Nat.testBit_shiftRight,
    show (0xff : Nat) = 2 ^ 8 - 1 from rfl, Nat.testBit_two_pow_sub_one, Nat.testBit_two_pow_sub_one]
  by_cases h8 : i < 8
  · simp [h8, show ¬ (8 ≤ i) by omega]
  · by_cases h16 : i < 16
    · rw [show 8 + (i - 8) = i by omega]
      simp [h8, show i - 8 < 8 by omega, show 8 ≤ i by omega]
    · have : v.testBit i = false :=
        Nat.testBit_lt_two_pow (Nat.lt_of_lt_of_le (show v < 2 ^ 16 from h) (Nat.pow_le_pow_right (by omega) (by omega)))
      simp [h8, this, show ¬ (i - 8 < 8) by omega]

theorem and_lt (v : Nat) : v &&& 0xff < 256 := Nat.lt_of_le_of_lt Nat.and_le_right (by omega)

theorem shl8_lt {v : Nat} (h : v < 256) : v <<< 8 < 65536 := by rw [Nat.shiftLeft_eq]; omega

theorem factor_split (f : G16) :
    ofValue (f.value.toNat &&& 0xff) + ofValue (((f.value.toNat >>> 8) &&& 0xff) <<< 8) = f := by
  apply ext
  rw [add_toNat, toNat_ofValue (by have := and_lt f.value.toNat; omega), toNat_ofValue (shl8_lt (and_lt _)), split16 _ (value_lt f)]

theorem tableL_eq (f : G16) (i : Nat) : tableL f i = (f * ofValue i).value.toNat := by
  unfold tableL longTable
  rw [if_pos rfl, if_neg (by omega), if_pos rfl, Galois.mul_comm' (ofValue i), Galois.mul_comm' _ (ofValue i), Galois.mul_comm' _ (ofValue i),
    ← left_distrib', factor_split, Galois.mul_comm']

theorem tableH_eq (f : G16) (i : Nat) : tableH f i = (f * ofValue (i <<< 8)).value.toNat := by
  unfold tableH longTable
  rw [if_neg (by omega), if_pos rfl, if_neg (by omega), if_neg (by omega), Galois.mul_comm' _ (ofValue (i <<< 8)), Galois.mul_comm' _ (ofValue (i <<< 8)),
    ← left_distrib', factor_split, Galois.mul_comm']

theorem half_eq (f : G16) (v : Nat) (h : v < 65536) :
    tableL f (v &&& 0xff) ^^^ tableH f ((v >>> 8) &&& 0xff) = (f * ofValue v).value.toNat := by
  rw [tableL_eq, tableH_eq, ← add_toNat, ← left_distrib']
  congr 3
  apply ext
  rw [add_toNat, toNat_ofValue (by have := and_lt v; omega), toNat_ofValue (shl8_lt (and_lt _)), split16 _ h, toNat_ofValue h]

theorem join16 {a b : Nat} (h : a < 65536) : a ^^^ (b <<< 16) = a + 65536 * b := by
  apply Nat.eq_of_testBit_eq
  intro i
  rw [Nat.add_comm, show 65536 * b + a = 2 ^ 16 * b + a from rfl, Nat.testBit_two_pow_mul_add b (show a < 2 ^ 16 from h),
    Nat.testBit_xor, Nat.testBit_shiftLeft]
  by_cases q : i < 16
  · rw [if_pos q]; simp [show ¬ (16 ≤ i) by omega]
  · have : a.testBit i = false :=
      Nat.testBit_lt_two_pow (Nat.lt_of_lt_of_le (show a < 2 ^ 16 from h) (Nat.pow_le_pow_right (by omega) (by omega)))
    rw [if_neg q, this]; simp [show 16 ≤ i by omega]

theorem word_split (w : Nat) : low w ^^^ (high w <<< 16) = w := by
  unfold low high
  rw [join16 (by omega)]; omega

theorem byte0 (s : Nat) : (s >>> 0) &&& 0xff = low s &&& 0xff := by
  unfold low
  rw [Nat.shiftRight_zero, show (0xff : Nat) = 2 ^ 8 - 1 from rfl, Nat.and_two_pow_sub_one_eq_mod, Nat.and_two_pow_sub_one_eq_mod]; omega

theorem byte1 (s : Nat) : (s >>> 8) &&& 0xff = (low s >>> 8) &&& 0xff := by
  unfold low
  rw [Nat.shiftRight_eq_div_pow, Nat.shiftRight_eq_div_pow, show (0xff : Nat) = 2 ^ 8 - 1 from rfl, Nat.and_two_pow_sub_one_eq_mod,
    Nat.and_two_pow_sub_one_eq_mod]; omega

theorem byte2 (s : Nat) : (s >>> 16) &&& 0xff = high s &&& 0xff := by
  unfold high
  rw [Nat.shiftRight_eq_div_pow]

theorem byte3 (s : Nat) : (s >>> 24) &&& 0xff = (high s >>> 8) &&& 0xff := by
  unfold high
  rw [Nat.shiftRight_eq_div_pow, Nat.shiftRight_eq_div_pow, Nat.div_div_eq_div_mul]

/-- Process adds the product of the factor and the source to both symbols of a word. -/
theorem processWord_eq (f : G16) (s d : Nat) (hs : s < 2 ^ 32) :
    processWord f s d = (low d ^^^ (f * ofValue (low s)).value.toNat) + 65536 * (high d ^^^ (f * ofValue (high s)).value.toNat) := by
  have h1 : low s < 65536 := Nat.mod_lt _ (by omega)
  have h2 : high s < 65536 := by unfold high; omega
  have h3 : low d ^^^ (f * ofValue (low s)).value.toNat < 65536 := xor_lt16 (Nat.mod_lt _ (by omega)) (value_lt _)
  rw [← join16 h3, ← half_eq f (low s) h1, ← half_eq f (high s) h2]
  unfold processWord
  rw [byte0, byte1, byte2, byte3]
  conv => lhs; rw [← word_split d]
  rw [Nat.shiftLeft_xor_distrib, Nat.shiftLeft_xor_distrib]
  ac_rfl

/-- The two symbols of a word as elements of the field. -/
def lo (w : Nat) : G16 := ofValue (low w)
def hi (w : Nat) : G16 := ofValue (high w)

theorem low_join (a b : Nat) (ha : a < 65536) : low (a + 65536 * b) = a := by unfold low; omega
theorem high_join (a b : Nat) (ha : a < 65536) : high (a + 65536 * b) = b := by unfold high; omega

theorem processWord_ok (f : G16) (s d : Nat) (hs : s < 2 ^ 32) (hd : d < 2 ^ 32) :
    processWord f s d < 2 ^ 32 ∧ lo (processWord f s d) = lo d + f * lo s ∧ hi (processWord f s d) = hi d + f * hi s := by
  have a : low d ^^^ (f * ofValue (low s)).value.toNat < 65536 := xor_lt16 (Nat.mod_lt _ (by omega)) (value_lt _)
  have b : high d ^^^ (f * ofValue (high s)).value.toNat < 65536 := xor_lt16 (by unfold high; omega) (value_lt _)
  have hdl : low d < 65536 := Nat.mod_lt _ (by omega)
  have hdh : high d < 65536 := by unfold high; omega
  rw [processWord_eq f s d hs]
  refine ⟨by omega, ?_, ?_⟩
  · unfold lo
    rw [low_join _ _ a]
    apply ext
    rw [toNat_ofValue a, add_toNat, toNat_ofValue hdl]
  · unfold hi
    rw [high_join _ _ a]
    apply ext
    rw [toNat_ofValue b, add_toNat, toNat_ofValue hdh]

theorem word_ext {v w : Nat} (hv : v < 2 ^ 32) (hw : w < 2 ^ 32) (h1 : lo v = lo w) (h2 : hi v = hi w) : v = w := by
  have a := congrArg (fun x => x.value.toNat) h1
  have b := congrArg (fun x => x.value.toNat) h2
  unfold lo at a
  unfold hi at b
  rw [toNat_ofValue (show low v < 65536 from Nat.mod_lt _ (by omega)), toNat_ofValue (show low w < 65536 from Nat.mod_lt _ (by omega))] at a
  rw [toNat_ofValue (show high v < 65536 by unfold high; omega), toNat_ofValue (show high w < 65536 by unfold high; omega)] at b
  unfold low at a
  unfold high at b
  omega

/-! ### The constants -/

theorem gcdLoop_eq (n a b : Nat) (h : a + b ≤ n) : gcdLoop n a b = Nat.gcd a b := by
  induction n generalizing a b with
  | zero =>
    have ha : a = 0 := by omega
    have hb : b = 0 := by omega
    rw [ha, hb]; rfl
  | succ n ih =>
    unfold gcdLoop
    by_cases q : a ≠ 0 ∧ b ≠ 0
    · rw [if_pos q]
      by_cases g : a > b
      · have := Nat.mod_lt a (show 0 < b by omega)
        rw [if_pos g, ih _ _ (by omega), Nat.gcd_comm a b]
        exact (Nat.gcd_rec b a).symm
      · have := Nat.mod_lt b (show 0 < a by omega)
        rw [if_neg g, ih _ _ (by omega), Nat.gcd_comm]
        exact (Nat.gcd_rec a b).symm
    · rw [if_neg q]
      by_cases ha : a = 0
      · rw [ha, Nat.gcd_zero_left, Nat.zero_add]
      · have hb : b = 0 := by omega
        rw [hb, Nat.gcd_zero_right, Nat.add_zero]

theorem gcd_one (l : Nat) : Rs.gcd limit l = 1 ↔ Nat.gcd 65535 l = 1 := by
  unfold Rs.gcd limit
  by_cases h : l = 0
  · subst h
    rw [if_neg (by omega), Nat.gcd_zero_right]; omega
  · rw [if_pos (by omega), gcdLoop_eq _ _ _ (Nat.le_refl _)]

/-- The exponents of the constants from `lb`. -/
def logsFrom (lb : Nat) : List Nat := (List.range' lb (65535 - lb)).filter (fun l => Nat.gcd 65535 l = 1)

theorem logs_eq : logs = logsFrom 0 := by
  unfold logs logsFrom
  rw [List.range_eq_range']

theorem logsFrom_cons (lb : Nat) (h : lb < 65535) :
    logsFrom lb = if Nat.gcd 65535 lb = 1 then lb :: logsFrom (lb + 1) else logsFrom (lb + 1) := by
  unfold logsFrom
  rw [show 65535 - lb = (65535 - (lb + 1)) + 1 by omega, List.range'_succ, List.filter_cons]
  simp only [decide_eq_true_eq]

theorem logsFrom_end (lb : Nat) (h : 65535 ≤ lb) : logsFrom lb = [] := by
  unfold logsFrom
  rw [show 65535 - lb = 0 by omega]; rfl

theorem seek_ok (n lb : Nat) (h : lb + n = 65536) :
    (seekBase n lb ≥ 65535 ∧ logsFrom lb = []) ∨
      (seekBase n lb < 65535 ∧ logsFrom lb = seekBase n lb :: logsFrom (seekBase n lb + 1)) := by
  induction n generalizing lb with
  | zero => exact Or.inl ⟨by rw [seekBase]; omega, logsFrom_end lb (by omega)⟩
  | succ n ih =>
    rw [seekBase]
    by_cases q : Rs.gcd limit lb ≠ 1
    · rw [if_pos q]
      have q2 : ¬ Nat.gcd 65535 lb = 1 := fun e => q ((gcd_one lb).mpr e)
      by_cases e : lb < 65535
      · rw [logsFrom_cons lb e, if_neg q2]
        exact ih (lb + 1) (by omega)
      · have hlb : lb = 65535 := by omega
        have hn : n = 0 := by omega
        subst hlb; subst hn
        exact Or.inl ⟨by rw [seekBase]; omega, logsFrom_end _ (by omega)⟩
    · rw [if_neg q]
      have q2 : Nat.gcd 65535 lb = 1 := (gcd_one lb).mp (Classical.not_not.mp q)
      by_cases e : lb < 65535
      · exact Or.inr ⟨e, by conv => lhs; rw [logsFrom_cons lb e, if_pos q2]⟩
      · exact Or.inl ⟨by omega, logsFrom_end lb (by omega)⟩

/-- The numbers of the blocks with the value `v`, from `i`. -/
def indices (v : Bool) : List Bool → Nat → List Nat
  | [], _ => []
  | p :: ps, i => if p = v then i :: indices v ps (i + 1) else indices v ps (i + 1)

theorem seek_le (n lb : Nat) (h : lb + n = 65536) : seekBase n lb ≤ 65536 := by
  induction n generalizing lb with
  | zero => rw [seekBase]; omega
  | succ n ih =>
    rw [seekBase]
    by_cases q : Rs.gcd limit lb ≠ 1
    · rw [if_pos q]; exact ih (lb + 1) (by omega)
    · rw [if_neg q]; omega

theorem inputLoop_eq (ps : List Bool) (index lb : Nat) (hlb : lb ≤ 65536) (inp : Input) :
    inputLoop ps index lb inp =
      if ps.length ≤ (logsFrom lb).length then
        some { present := inp.present ++ indices true ps index, missing := inp.missing ++ indices false ps index,
               base := inp.base ++ ((logsFrom lb).take ps.length).map alpha }
      else none := by
  induction ps generalizing index lb inp with
  | nil => rw [inputLoop, if_pos (by simp)]; simp [indices]
  | cons p ps ih =>
    rw [inputLoop]
    have hk := seek_ok (65536 - lb) lb (by omega)
    generalize seekBase (65536 - lb) lb = k at hk
    rcases hk with ⟨a, b⟩ | ⟨a, b⟩
    · rw [if_pos (show k ≥ limit from a), b, if_neg (by simp)]
    · have e2 : (⟨alog (ofValue k)⟩ : G16) = alpha k := by
        unfold alog
        rw [toNat_ofValue (by omega)]
        exact antilog_alpha a
      rw [if_neg (show ¬ k ≥ limit by unfold limit; omega), ih _ _ (by omega), b, e2]
      simp only [List.length_cons, Nat.add_le_add_iff_right, List.take_succ_cons, List.map_cons]
      by_cases q : ps.length ≤ (logsFrom (k + 1)).length
      · rw [if_pos q, if_pos q]
        cases p <;> simp [indices]
      · rw [if_neg q, if_neg q]

/-- SetInput: present and missing blocks in their order, the constants of the format, and failure only if there are too many blocks. -/
theorem setInput_eq (ps : List Bool) :
    setInput ps =
      if ps.length ≤ logs.length then
        some { present := indices true ps 0, missing := indices false ps 0, base := (logs.take ps.length).map alpha }
      else none := by
  unfold setInput
  rw [inputLoop_eq _ _ _ (by omega), logs_eq]
  simp only [List.nil_append]

end Verif.Rs
