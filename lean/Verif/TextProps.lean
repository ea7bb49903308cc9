import Verif.Text
/-
Reading inverts writing, for lines, numbers and 64 bit numbers (C44).
-/
namespace Verif.Text

/-! ### Lines -/

/-- A text that can be written on one line: no line break. -/
def OneLine (s : Bytes) : Prop := (10 : UInt8) ∉ s

theorem fgets_line (l rest : Bytes) (n : Nat) (h : OneLine l) (hn : l.length < n) :
    fgets n (l ++ 10 :: rest) = (l ++ [10], rest) := by
  induction l generalizing n with
  | nil => cases n with
    | zero => omega
    | succ n => simp [fgets]
  | cons c l ih =>
    simp only [OneLine, List.mem_cons, not_or] at h
    cases n with
    | zero => simp at hn
    | succ n =>
      have := ih n h.2 (by simpa using hn)
      have hc : ¬ c = 10 := fun e => h.1 e.symm
      simp [fgets, hc, this]

/-- A written line is read back if the buffer has room for it, its line break and the terminating NUL. -/
theorem readLine_line (l rest : Bytes) (size : Nat) (h : OneLine l) (hn : l.length + 2 ≤ size) :
    readLine size (l ++ 10 :: rest) = some (l, rest) := by
  unfold readLine
  rw [if_neg (by simp), fgets_line l rest (size - 1) h (by omega)]
  simp

theorem skipLine_line (l rest : Bytes) (h : OneLine l) : skipLine (l ++ 10 :: rest) = rest := by
  induction l with
  | nil => simp [skipLine]
  | cons c l ih =>
    simp only [OneLine, List.mem_cons, not_or] at h
    have hc : ¬ c = 10 := fun e => h.1 e.symm
    simp [skipLine, hc, ih h.2]

theorem fgets_long (l rest : Bytes) (n : Nat) (h : OneLine l) (hn : n ≤ l.length) :
    fgets n (l ++ 10 :: rest) = (l.take n, l.drop n ++ 10 :: rest) := by
  induction l generalizing n with
  | nil => simp at hn; subst hn; simp [fgets]
  | cons c l ih =>
    simp only [OneLine, List.mem_cons, not_or] at h
    cases n with
    | zero => simp [fgets]
    | succ n =>
      have hc : ¬ c = 10 := fun e => h.1 e.symm
      simp [fgets, hc, ih n h.2 (by simpa using hn)]

/-- A line that does not fit loses its end, one character more than necessary, but the next lines are read
correctly. -/
theorem readLine_long (l rest : Bytes) (size : Nat) (h : OneLine l) (h0 : 2 ≤ size) (hn : size < l.length + 2) :
    readLine size (l ++ 10 :: rest) = some (l.take (size - 2), rest) := by
  unfold readLine
  rw [if_neg (by simp), fgets_long l rest (size - 1) h (by omega)]
  have hl : (l.take (size - 1)).getLast? ≠ some 10 := by
    intro e
    exact h (List.mem_of_mem_take (List.mem_of_getLast? e))
  have hd : OneLine (l.drop (size - 1)) := fun e => h (List.mem_of_mem_drop e)
  simp only [hl, if_false]
  rw [skipLine_line _ _ hd, List.dropLast_eq_take, List.take_take, List.length_take]
  have : min (min (size - 1) l.length - 1) (size - 1) = size - 2 := by omega
  rw [this]

/-! ### Numbers -/

def ndigits (f n : Nat) : Nat := (digits f n).length

theorem digits_lt (f n : Nat) : ∀ d ∈ digits f n, d < 10 := by
  induction f generalizing n with
  | zero => simp [digits]
  | succ f ih =>
    intro d hd
    rw [digits] at hd
    by_cases h : n < 10
    · rw [if_pos h] at hd; simp at hd; omega
    · rw [if_neg h] at hd
      simp only [List.mem_append, List.mem_singleton] at hd
      rcases hd with hd | hd
      · exact ih _ d hd
      · omega

/-- Value of a list of digits. -/
def valueOf (ds : List Nat) : Nat := ds.foldl (fun a d => a * 10 + d) 0

theorem valueOf_digits (f n : Nat) (h : n < f) : valueOf (digits f n) = n := by
  induction f generalizing n with
  | zero => omega
  | succ f ih =>
    rw [digits]
    by_cases hn : n < 10
    · rw [if_pos hn]; simp [valueOf]
    · rw [if_neg hn]
      have := ih (n / 10) (by omega)
      simp only [valueOf, List.foldl_append, List.foldl_cons, List.foldl_nil] at this ⊢
      rw [this]; omega

theorem digits_ne_nil (f n : Nat) (h : n < f) : digits f n ≠ [] := by
  cases f with
  | zero => omega
  | succ f => rw [digits]; by_cases h : n < 10 <;> simp [h]

theorem length_digits (f n k : Nat) (h : n < 10 ^ k) (hk : 0 < k) : (digits f n).length ≤ k := by
  induction f generalizing n k with
  | zero => simp [digits]
  | succ f ih =>
    rw [digits]
    by_cases hn : n < 10
    · rw [if_pos hn]; simp; omega
    · rw [if_neg hn]
      have hk2 : 2 ≤ k := by
        rcases Nat.lt_or_ge k 2 with h' | h'
        · have : k = 1 := by omega
          subst this; omega
        · exact h'
      have := ih (n / 10) (k - 1) (by
        have : 10 ^ k = 10 ^ (k - 1) * 10 := by rw [← Nat.pow_succ]; congr 1; omega
        omega) (by omega)
      simp; omega

theorem head_digits (f n : Nat) (h : n < f) (hn : 0 < n) : (digits f n).head? ≠ some 0 := by
  induction f generalizing n with
  | zero => omega
  | succ f ih =>
    rw [digits]
    by_cases h10 : n < 10
    · rw [if_pos h10]; simp; omega
    · rw [if_neg h10]
      have := ih (n / 10) (by omega) (by omega)
      have hne := digits_ne_nil f (n / 10) (by omega)
      rw [List.head?_append]
      cases hd : (digits f (n / 10)).head? with
      | none => simp at hd; exact absurd hd hne
      | some d => rw [hd] at this; simpa using this

theorem digitChar_toNat (d : Nat) (h : d < 10) : (digitChar d).toNat = 48 + d := by
  simp [digitChar, UInt8.toNat_ofNat']; omega

theorem digitVal_digitChar (d : Nat) (h : d < 10) : digitVal 10 (digitChar d) = some d := by
  have e := digitChar_toNat d h
  have h1 : (48 : UInt8) ≤ digitChar d ∧ digitChar d ≤ 57 := by
    constructor <;> rw [UInt8.le_iff_toNat_le] <;> simp [e] <;> omega
  simp [digitVal, h1, e, h]

/-- What may follow a number: the end or a character which is not a digit. -/
def Stops (rest : Bytes) : Prop := ∀ c r, rest = c :: r → digitVal 10 c = none

theorem scanDigits_show (ds : List Nat) (hd : ∀ d ∈ ds, d < 10) (acc : Nat) (rest : Bytes) (hr : Stops rest) :
    scanDigits 10 acc (ds.map digitChar ++ rest) = (ds.foldl (fun a d => a * 10 + d) acc, rest) := by
  induction ds generalizing acc with
  | nil =>
    cases rest with
    | nil => simp [scanDigits]
    | cons c r => simp [scanDigits, hr c r rfl]
  | cons d ds ih =>
    have h1 := hd d (by simp)
    have h2 : ∀ e ∈ ds, e < 10 := fun e he => hd e (by simp [he])
    simp [scanDigits, digitVal_digitChar d h1, ih h2]

theorem scanNat_show (k : Conv) (n : Nat) (rest : Bytes) (hr : Stops rest)
    (hx : ∀ r, rest ≠ 120 :: r ∧ rest ≠ 88 :: r) :
    scanNat k (showNat n ++ rest) = some (n, rest) := by
  have hval := valueOf_digits (n + 1) n (by omega)
  have hlt := digits_lt (n + 1) n
  have hne := digits_ne_nil (n + 1) n (by omega)
  have hsc := scanDigits_show (digits (n + 1) n) hlt 0 rest hr
  unfold showNat
  cases hds : digits (n + 1) n with
  | nil => exact absurd hds hne
  | cons d ds =>
    rw [hds] at hval hlt hsc
    have hd := hlt d (by simp)
    simp only [List.map_cons, List.cons_append]
    have hchar : (digitChar d = 48) ↔ d = 0 := by
      constructor
      · intro e
        have := digitChar_toNat d hd
        rw [e] at this; simp at this; omega
      · intro e; subst e; decide
    by_cases h0 : d = 0
    · have hn0 : n = 0 := by
        by_cases hn : 0 < n
        · have := head_digits (n + 1) n (by omega) hn
          rw [hds] at this; simp [h0] at this
        · omega
      subst hn0
      have : ds = [] := by
        have : digits (0 + 1) 0 = [0] := rfl
        rw [this] at hds; injection hds with _ h; exact h.symm
      subst this
      subst h0
      simp only [List.map_nil, List.nil_append]
      unfold scanNat
      cases k with
      | i =>
        dsimp only
        rw [if_pos ⟨by decide, rfl⟩]
        split
        · exact absurd rfl (hx _).1
        · exact absurd rfl (hx _).2
        · cases rest with
          | nil => simp [scanDigits]
          | cons c r =>
            have : digitVal 8 c = none := by
              have h10 := hr c r rfl
              unfold digitVal at h10 ⊢
              revert h10
              generalize (if 48 ≤ c ∧ c ≤ 57 then some (c.toNat - 48)
                else if 97 ≤ c ∧ c ≤ 102 then some (c.toNat - 87)
                else if 65 ≤ c ∧ c ≤ 70 then some (c.toNat - 55) else none : Option Nat) = v
              intro h10
              cases v with
              | none => rfl
              | some v =>
                simp only [Option.bind_some] at h10 ⊢
                by_cases hv : v < 10
                · rw [if_pos hv] at h10; cases h10
                · rw [if_neg (by omega)]
            simp [scanDigits, this]
      | u =>
        dsimp only
        rw [if_neg (by simp)]
        have e : digitVal 10 (digitChar 0) = some 0 := digitVal_digitChar 0 (by omega)
        rw [e]
        simp only [Option.isSome_some, if_true]
        simpa [valueOf] using hsc
    · unfold scanNat
      simp only [hchar, h0, false_and, if_false]
      rw [digitVal_digitChar d hd]
      simp only [Option.isSome_some, if_true]
      simp only [List.map_cons, List.cons_append] at hsc
      rw [hsc]
      simp only [valueOf] at hval
      rw [hval]

theorem show_first (n : Nat) : ∃ d ds, showNat n = digitChar d :: ds ∧ d < 10 := by
  have hlt := digits_lt (n + 1) n
  have hne := digits_ne_nil (n + 1) n (by omega)
  unfold showNat
  cases h : digits (n + 1) n with
  | nil => exact absurd h hne
  | cons d ds => exact ⟨d, ds.map digitChar, by simp, hlt d (by rw [h]; simp)⟩

theorem digit_plain (d : Nat) (h : d < 10) :
    isSpace (digitChar d) = false ∧ digitChar d ≠ 45 ∧ digitChar d ≠ 43 ∧ digitChar d ≠ 10 ∧ digitChar d ≠ 44 := by
  have : d = 0 ∨ d = 1 ∨ d = 2 ∨ d = 3 ∨ d = 4 ∨ d = 5 ∨ d = 6 ∨ d = 7 ∨ d = 8 ∨ d = 9 := by omega
  rcases this with h | h | h | h | h | h | h | h | h | h <;> subst h <;> decide

/-- What follows a number in a line: nothing or a comma. -/
def CommaOrEnd (rest : Bytes) : Prop := rest = [] ∨ ∃ r, rest = 44 :: r

theorem CommaOrEnd.stops {rest : Bytes} (h : CommaOrEnd rest) : Stops rest := by
  intro c r e
  rcases h with h | ⟨r', h⟩
  · rw [h] at e; cases e
  · rw [h] at e; injection e with e _; subst e; decide

theorem CommaOrEnd.nohex {rest : Bytes} (h : CommaOrEnd rest) : ∀ r, rest ≠ 120 :: r ∧ rest ≠ 88 :: r := by
  intro r
  rcases h with h | ⟨r', h⟩ <;> subst h
  · simp
  · constructor <;> intro e <;> injection e with e _ <;> revert e <;> decide

theorem scanNum_plain (k : Conv) (n : Nat) (rest : Bytes) (h : CommaOrEnd rest) :
    scanNum k (showNat n ++ rest) = some (BitVec.ofNat 32 n, rest) := by
  obtain ⟨d, ds, e, hd⟩ := show_first n
  have hp := digit_plain d hd
  have hs := scanNat_show k n rest h.stops h.nohex
  unfold scanNum
  rw [e] at hs ⊢
  simp only [List.cons_append] at hs ⊢
  rw [List.dropWhile_cons_of_neg (by rw [hp.1]; simp)]
  split
  · rename_i heq; injection heq with heq _; exact absurd heq hp.2.1
  · rename_i heq; injection heq with heq _; exact absurd heq hp.2.2.1
  · rw [hs]; rfl

theorem scanNum_neg (k : Conv) (n : Nat) (rest : Bytes) (h : CommaOrEnd rest) :
    scanNum k (45 :: showNat n ++ rest) = some (BitVec.ofInt 32 (-(n : Int)), rest) := by
  have hs := scanNat_show k n rest h.stops h.nohex
  unfold scanNum
  simp only [List.cons_append]
  rw [List.dropWhile_cons_of_neg (by decide)]
  simp only [hs, Option.map_some]

/-- A number is read as it was written. -/
theorem scanNum_show (k : Conv) (x : I32) (rest : Bytes) (h : CommaOrEnd rest) :
    scanNum k (showNum k x ++ rest) = some (x, rest) := by
  cases k with
  | u =>
    simp only [showNum]
    rw [scanNum_plain _ _ _ h, BitVec.ofNat_toNat]
    simp
  | i =>
    simp only [showNum, showInt]
    by_cases hx : x.toInt < 0
    · rw [if_pos hx, scanNum_neg _ _ _ h]
      have : -(x.toInt.natAbs : Int) = x.toInt := by omega
      rw [this, BitVec.ofInt_toInt]
    · rw [if_neg hx, scanNum_plain _ _ _ h]
      have : BitVec.ofNat 32 x.toInt.natAbs = BitVec.ofInt 32 x.toInt := by
        rw [← BitVec.ofInt_natCast]; congr 1; omega
      rw [this, BitVec.ofInt_toInt]

/-- A line of numbers is read as it was written; `tail` is what follows the numbers in the line. -/
theorem scanNums_show (xs : List (Conv × I32)) (tail : Bytes) (ht : CommaOrEnd tail) :
    scanNums (xs.map (·.1)) (showNums xs ++ tail) = some (xs.map (·.2)) := by
  induction xs with
  | nil => rfl
  | cons x xs ih =>
    obtain ⟨k, x⟩ := x
    cases xs with
    | nil => simp [scanNums, showNums, scanNum_show k x tail ht]
    | cons y ys =>
      simp only [List.map_cons, showNums, scanNums] at ih ⊢
      rw [show showNum k x ++ 44 :: showNums (y :: ys) ++ tail
          = showNum k x ++ (44 :: (showNums (y :: ys) ++ tail)) by simp]
      rw [scanNum_show k x _ (Or.inr ⟨_, rfl⟩)]
      simp only [ih, Option.map_some]

theorem showNat_chars (n : Nat) : ∀ c ∈ showNat n, c ≠ 10 ∧ c ≠ 44 := by
  intro c hc
  simp only [showNat, List.mem_map] at hc
  obtain ⟨d, hd, rfl⟩ := hc
  have := digit_plain d (digits_lt _ _ d hd)
  exact ⟨this.2.2.2.1, this.2.2.2.2⟩

theorem showNum_chars (k : Conv) (x : I32) : ∀ c ∈ showNum k x, c ≠ 10 ∧ c ≠ 44 := by
  intro c hc
  cases k with
  | u => exact showNat_chars _ c hc
  | i =>
    simp only [showNum, showInt] at hc
    by_cases hx : x.toInt < 0
    · rw [if_pos hx] at hc
      rcases List.mem_cons.1 hc with e | e
      · subst e; decide
      · exact showNat_chars _ c e
    · rw [if_neg hx] at hc; exact showNat_chars _ c hc

theorem length_showNat (n : Nat) (h : n < 10 ^ 10) : (showNat n).length ≤ 10 := by
  simpa [showNat] using length_digits (n + 1) n 10 h (by omega)

theorem length_showNum (k : Conv) (x : I32) : (showNum k x).length ≤ 11 := by
  cases k with
  | u =>
    have := length_showNat x.toNat (by have := x.isLt; omega)
    simp only [showNum]; omega
  | i =>
    have h1 := BitVec.toInt_lt (x := x)
    have h2 := BitVec.le_toInt (x := x)
    have := length_showNat x.toInt.natAbs (by simp at h1 h2; omega)
    simp only [showNum, showInt]
    by_cases hx : x.toInt < 0
    · rw [if_pos hx]; simp; omega
    · rw [if_neg hx]; omega

theorem showNums_oneLine (xs : List (Conv × I32)) : OneLine (showNums xs) := by
  induction xs with
  | nil => simp [showNums, OneLine]
  | cons x xs ih =>
    obtain ⟨k, x⟩ := x
    cases xs with
    | nil => intro h; exact (showNum_chars k x _ h).1 rfl
    | cons y ys =>
      intro h
      simp only [showNums, List.mem_append, List.mem_cons] at h
      rcases h with h | h | h
      · exact (showNum_chars k x _ h).1 rfl
      · revert h; decide
      · exact ih h

theorem length_showNums (xs : List (Conv × I32)) : (showNums xs).length ≤ 12 * xs.length := by
  induction xs with
  | nil => simp [showNums]
  | cons x xs ih =>
    obtain ⟨k, x⟩ := x
    have := length_showNum k x
    cases xs with
    | nil => simp [showNums]; omega
    | cons y ys => simp only [showNums, List.length_append, List.length_cons] at ih ⊢; omega

/-- Reading a line of numbers. -/
theorem scanLine_show (ks : List Conv) (xs : List (Conv × I32)) (rest : Bytes) (hk : xs.map (·.1) = ks)
    (h : xs.length ≤ 80) :
    scanLine ks (showNums xs ++ 10 :: rest) = some (xs.map (·.2), rest) := by
  subst hk
  unfold scanLine
  have := length_showNums xs
  rw [readLine_line _ _ _ (showNums_oneLine xs) (by omega)]
  have := scanNums_show xs [] (Or.inl rfl)
  rw [List.append_nil] at this
  simp [this]

/-! ### C44: 64 bit numbers -/

/-- C44. Splitting any 64 bit number into two 32 bit numbers and joining them gives the number back. -/
theorem join_split (x : I64) : joinInt64 (splitHi x) (splitLo x) = x := by
  apply BitVec.eq_of_toNat_eq
  simp only [joinInt64, splitHi, splitLo, BitVec.toNat_add, BitVec.toNat_shiftLeft, BitVec.toNat_setWidth,
    BitVec.toNat_ushiftRight, Nat.shiftRight_eq_div_pow, Nat.shiftLeft_eq]
  have := x.isLt
  omega

/-- C44. Joining and splitting gives both halves back. -/
theorem split_join (hi lo : I32) : splitHi (joinInt64 hi lo) = hi ∧ splitLo (joinInt64 hi lo) = lo := by
  have h1 := hi.isLt
  have h2 := lo.isLt
  constructor <;> apply BitVec.eq_of_toNat_eq <;>
    simp only [joinInt64, splitHi, splitLo, BitVec.toNat_add, BitVec.toNat_shiftLeft, BitVec.toNat_setWidth,
      BitVec.toNat_ushiftRight, Nat.shiftRight_eq_div_pow, Nat.shiftLeft_eq] <;> omega

/-- C44. The value of a joined number is high * 2^32 + low, as unsigned number. -/
theorem join_value (hi lo : I32) : (joinInt64 hi lo).toNat = hi.toNat * 2 ^ 32 + lo.toNat := by
  have h1 := hi.isLt
  have h2 := lo.isLt
  simp only [joinInt64, BitVec.toNat_add, BitVec.toNat_shiftLeft, BitVec.toNat_setWidth, Nat.shiftLeft_eq]
  omega

example : joinInt64 1 5 = 4294967301 := by decide +kernel
example : (splitHi (BitVec.ofInt 64 (-3)), splitLo (BitVec.ofInt 64 (-3))) =
    (4294967295, 4294967293) := by decide +kernel

/-! ### Casts -/

theorem toBool_ofBool (b : Bool) : toBool (ofBool b) = b := by cases b <;> rfl

/-- Times up to January 2038 survive the cast to `int`. -/
theorem time_roundtrip (t : I64) (h1 : -2 ^ 31 ≤ t.toInt) (h2 : t.toInt < 2 ^ 31) : intToTime (timeToInt t) = t := by
  apply BitVec.eq_of_toInt_eq
  simp only [intToTime, timeToInt]
  rw [BitVec.toInt_signExtend_of_le (by omega), BitVec.toInt_setWidth]
  rw [BitVec.toInt_eq_toNat_cond] at h1 h2 ⊢
  have := t.isLt
  rw [Int.bmod_def]
  omega

end Verif.Text
