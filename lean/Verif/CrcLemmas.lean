import Verif.Crc
import Verif.CrcSpec
namespace Verif.Crc

theorem xor_cancel (a b : BitVec 32) : a ^^^ (a ^^^ b) = b := by
  rw [← BitVec.xor_assoc, BitVec.xor_self, BitVec.zero_xor]

theorem bitStep_eq (x : BitVec 32) : bitStep x = (x >>> 1) ^^^ (if x.getLsbD 0 then 0xEDB88320#32 else 0#32) := by
  unfold bitStep; split <;> simp

theorem bitStep_xor (x y : BitVec 32) : bitStep (x ^^^ y) = bitStep x ^^^ bitStep y := by
  simp only [bitStep_eq, BitVec.getLsbD_xor, BitVec.ushiftRight_xor_distrib]
  generalize x >>> 1 = u
  generalize y >>> 1 = w
  generalize 0xEDB88320#32 = p
  cases x.getLsbD 0 <;> cases y.getLsbD 0 <;>
    simp only [Bool.xor_false, Bool.xor_true, Bool.not_true, Bool.not_false, if_true, Bool.false_eq_true, if_false,
      BitVec.xor_zero]
  · ac_rfl
  · ac_rfl
  · rw [show u ^^^ p ^^^ (w ^^^ p) = p ^^^ (p ^^^ (u ^^^ w)) by ac_rfl, xor_cancel]

theorem bitSteps_xor (n : Nat) : ∀ x y, bitSteps n (x ^^^ y) = bitSteps n x ^^^ bitSteps n y := by
  induction n with
  | zero => intro x y; rfl
  | succ n ih => intro x y; simp only [bitSteps, bitStep_xor, ih]

theorem bitSteps_zero (n : Nat) : bitSteps n 0#32 = 0#32 := by
  induction n with
  | zero => rfl
  | succ n ih => simp only [bitSteps]; rw [show bitStep 0#32 = 0#32 by decide, ih]

theorem bitSteps_add (m n : Nat) : ∀ x, bitSteps (m + n) x = bitSteps n (bitSteps m x) := by
  induction m with
  | zero => intro x; simp [bitSteps]
  | succ m ih => intro x; rw [Nat.succ_add]; simp only [bitSteps, ih]

/-- Shifting out a zero bit. -/
theorem bitStep_shl (v : BitVec 32) (h : v.getLsbD 31 = false) : bitStep (v <<< 1) = v := by
  unfold bitStep
  simp only [BitVec.getLsbD_shiftLeft]
  simp
  apply BitVec.eq_of_getLsbD_eq
  intro i hi
  simp only [BitVec.getLsbD_ushiftRight, BitVec.getLsbD_shiftLeft]
  by_cases h31 : i = 31
  · subst h31; simpa using h.symm
  · simp; omega

theorem bitSteps_shl (n : Nat) : ∀ (v : BitVec 32), (∀ j, 32 - n ≤ j → v.getLsbD j = false) → n ≤ 32 →
    bitSteps n (v <<< n) = v := by
  induction n with
  | zero => intro v _ _; simp [bitSteps]
  | succ n ih =>
    intro v h hn
    simp only [bitSteps]
    rw [show v <<< (n + 1) = (v <<< n) <<< 1 by rw [← BitVec.shiftLeft_add]]
    rw [bitStep_shl]
    · exact ih v (fun j hj => h j (by omega)) (by omega)
    · simp only [BitVec.getLsbD_shiftLeft]
      simp; intro _; apply h; omega

theorem tab_sizes : tab0.length = 256 ∧ tab1.length = 256 ∧ tab2.length = 256 ∧ tab3.length = 256 := by
  decide +kernel

theorem tab0_eq : tab0 = (List.range 256).map (fun i => bitSteps 8 (BitVec.ofNat 32 i)) := by decide +kernel
theorem tab1_eq : tab1 = (List.range 256).map (fun i => bitSteps 16 (BitVec.ofNat 32 i)) := by decide +kernel
theorem tab2_eq : tab2 = (List.range 256).map (fun i => bitSteps 24 (BitVec.ofNat 32 i)) := by decide +kernel
theorem tab3_eq : tab3 = (List.range 256).map (fun i => bitSteps 32 (BitVec.ofNat 32 i)) := by decide +kernel

theorem and_ff_lt (x : BitVec 32) : (x &&& 0xFF#32).toNat < 256 := by
  rw [BitVec.toNat_and]
  exact Nat.lt_of_le_of_lt Nat.and_le_right (by decide)

theorem look_map (f : Nat → BitVec 32) (x : BitVec 32) :
    look ((List.range 256).map f) (x &&& 0xFF#32) = f (x &&& 0xFF#32).toNat := by
  have := and_ff_lt x
  simp only [look, List.getD_eq_getElem?_getD, List.getElem?_map]
  rw [List.getElem?_range this]; rfl

theorem look0 (x : BitVec 32) : look tab0 (x &&& 0xFF#32) = bitSteps 8 (x &&& 0xFF#32) := by
  rw [tab0_eq, look_map]; simp
theorem look1 (x : BitVec 32) : look tab1 (x &&& 0xFF#32) = bitSteps 16 (x &&& 0xFF#32) := by
  rw [tab1_eq, look_map]; simp
theorem look2 (x : BitVec 32) : look tab2 (x &&& 0xFF#32) = bitSteps 24 (x &&& 0xFF#32) := by
  rw [tab2_eq, look_map]; simp
theorem look3 (x : BitVec 32) : look tab3 (x &&& 0xFF#32) = bitSteps 32 (x &&& 0xFF#32) := by
  rw [tab3_eq, look_map]; simp

theorem getLsbD_ff (i : Nat) : (0xFF#32).getLsbD i = decide (i < 8) := by
  by_cases h : i < 32
  · have : ∀ i : Fin 32, (0xFF#32).getLsbD i = decide (i.val < 8) := by decide
    exact this ⟨i, h⟩
  · rw [BitVec.getLsbD_of_ge _ _ (by omega)]; simp; omega

theorem getLsbD_ffffff (i : Nat) : (0x00FFFFFF#32).getLsbD i = decide (i < 24) := by
  by_cases h : i < 32
  · have : ∀ i : Fin 32, (0x00FFFFFF#32).getLsbD i = decide (i.val < 24) := by decide
    exact this ⟨i, h⟩
  · rw [BitVec.getLsbD_of_ge _ _ (by omega)]; simp; omega

/-- Split off the low byte. -/
theorem split_low (x : BitVec 32) : x = ((x >>> 8) <<< 8) ^^^ (x &&& 0xFF#32) := by
  apply BitVec.eq_of_getLsbD_eq
  intro i hi
  simp only [BitVec.getLsbD_xor, BitVec.getLsbD_shiftLeft, BitVec.getLsbD_ushiftRight,
    BitVec.getLsbD_and, getLsbD_ff]
  by_cases h : i < 8
  · simp [h, hi]
  · simp [h, hi, show 8 + (i - 8) = i by omega]

theorem shr_and (x : BitVec 32) : (x >>> 8) &&& 0x00FFFFFF#32 = x >>> 8 := by
  apply BitVec.eq_of_getLsbD_eq
  intro i hi
  simp only [BitVec.getLsbD_and, BitVec.getLsbD_ushiftRight, getLsbD_ffffff]
  by_cases h : i < 24
  · simp [h]
  · simp [h, BitVec.getLsbD_of_ge x (8 + i) (by omega)]

theorem bitSteps8_split (x : BitVec 32) : bitSteps 8 x = (x >>> 8) ^^^ bitSteps 8 (x &&& 0xFF#32) := by
  conv => lhs; rw [split_low x]
  rw [bitSteps_xor, bitSteps_shl 8 _ _ (by omega)]
  intro j hj
  rw [BitVec.getLsbD_ushiftRight, BitVec.getLsbD_of_ge _ _ (by omega)]

theorem byte_shr (b : BitVec 8) : (b.setWidth 32) >>> 8 = 0#32 := by
  apply BitVec.eq_of_getLsbD_eq
  intro i hi
  simp only [BitVec.getLsbD_ushiftRight, BitVec.getLsbD_setWidth]
  rw [BitVec.getLsbD_of_ge b _ (by omega)]; simp

theorem byteStep_eq (crc : BitVec 32) (b : BitVec 8) : byteStep crc b = feedByte crc b := by
  unfold byteStep feedByte
  rw [shr_and, look0, bitSteps8_split (crc ^^^ b.setWidth 32), BitVec.ushiftRight_xor_distrib, byte_shr]
  simp

theorem byte_high (b : BitVec 8) (j : Nat) (h : 8 ≤ j) : (b.setWidth 32).getLsbD j = false := by
  simp only [BitVec.getLsbD_setWidth]; rw [BitVec.getLsbD_of_ge b _ h]; simp

theorem load32_xor (b0 b1 b2 b3 : BitVec 8) : load32 b0 b1 b2 b3 =
    b0.setWidth 32 ^^^ (b1.setWidth 32 <<< 8) ^^^ (b2.setWidth 32 <<< 16) ^^^ (b3.setWidth 32 <<< 24) := by
  unfold load32
  apply BitVec.eq_of_getLsbD_eq
  intro i hi
  simp only [BitVec.getLsbD_xor, BitVec.getLsbD_or, BitVec.getLsbD_shiftLeft, BitVec.getLsbD_setWidth]
  by_cases h0 : i < 8
  · simp [h0, show i < 16 by omega, show i < 24 by omega]
  · rw [BitVec.getLsbD_of_ge b0 i (by omega)]
    by_cases h1 : i < 16
    · simp [h0, h1, show i < 24 by omega]
    · rw [BitVec.getLsbD_of_ge b1 (i - 8) (by omega)]
      by_cases h2 : i < 24
      · simp [h1, h2]
      · rw [BitVec.getLsbD_of_ge b2 (i - 16) (by omega)]; simp

/-- The four byte step is 32 bit steps of the xor-ed word. -/
theorem wordStep_eq (crc w : BitVec 32) : wordStep crc w = bitSteps 32 (w ^^^ crc) := by
  unfold wordStep
  simp only [look0, look1, look2, look3]
  generalize w ^^^ crc = x
  have e1 := split_low x
  have e2 := split_low (x >>> 8)
  have e3 := split_low (x >>> 16)
  have s2 : x >>> 8 >>> 8 = x >>> 16 := by rw [← BitVec.shiftRight_add]
  have s3 : x >>> 16 >>> 8 = x >>> 24 := by rw [← BitVec.shiftRight_add]
  rw [s2] at e2; rw [s3] at e3
  have h24 : x >>> 24 &&& 0xFF#32 = x >>> 24 := by
    apply BitVec.eq_of_getLsbD_eq
    intro i hi
    simp only [BitVec.getLsbD_and, BitVec.getLsbD_ushiftRight, getLsbD_ff]
    by_cases h : i < 8
    · simp [h]
    · simp [h, BitVec.getLsbD_of_ge x (24 + i) (by omega)]
  have hi : ∀ k j, 32 - k ≤ j → (x >>> k).getLsbD j = false ∨ 32 < k := by
    intro k j hj
    by_cases hk : 32 < k
    · exact Or.inr hk
    · left; rw [BitVec.getLsbD_ushiftRight, BitVec.getLsbD_of_ge _ _ (by omega)]
  have hi' : ∀ k j, k ≤ 32 → 32 - k ≤ j → (x >>> k).getLsbD j = false := by
    intro k j hk hj
    rcases hi k j hj with h | h
    · exact h
    · omega
  -- expand from the outside
  have r1 : bitSteps 32 (x) = bitSteps 24 (x >>> 8) ^^^ bitSteps 32 (x &&& 0xFF#32) := by
    have a := congrArg (bitSteps 32) e1
    have t := bitSteps_add 8 24 ((x >>> 8) <<< 8)
    rw [bitSteps_shl 8 _ (fun j hj => hi' 8 j (by omega) (by omega)) (by omega)] at t
    rw [bitSteps_xor, show bitSteps 32 ((x >>> 8) <<< 8) = bitSteps 24 (x >>> 8) from t] at a
    exact a
  have r2 : bitSteps 24 (x >>> 8) = bitSteps 16 (x >>> 16) ^^^ bitSteps 24 (x >>> 8 &&& 0xFF#32) := by
    have a := congrArg (bitSteps 24) e2
    have t := bitSteps_add 8 16 ((x >>> 16) <<< 8)
    rw [bitSteps_shl 8 _ (fun j hj => hi' 16 j (by omega) (by omega)) (by omega)] at t
    rw [bitSteps_xor, show bitSteps 24 ((x >>> 16) <<< 8) = bitSteps 16 (x >>> 16) from t] at a
    exact a
  have r3 : bitSteps 16 (x >>> 16) = bitSteps 8 (x >>> 24) ^^^ bitSteps 16 (x >>> 16 &&& 0xFF#32) := by
    have a := congrArg (bitSteps 16) e3
    have t := bitSteps_add 8 8 ((x >>> 24) <<< 8)
    rw [bitSteps_shl 8 _ (fun j hj => hi' 24 j (by omega) (by omega)) (by omega)] at t
    rw [bitSteps_xor, show bitSteps 16 ((x >>> 24) <<< 8) = bitSteps 8 (x >>> 24) from t] at a
    exact a
  rw [r1, r2, r3, h24]

theorem wordStep_bytes (crc : BitVec 32) (b0 b1 b2 b3 : BitVec 8) :
    wordStep crc (load32 b0 b1 b2 b3) = [b0, b1, b2, b3].foldl feedByte crc := by
  rw [wordStep_eq, load32_xor]
  simp only [List.foldl, feedByte]
  have hb : ∀ (b : BitVec 8) (k : Nat), k ≤ 24 → bitSteps k (b.setWidth 32 <<< k) = b.setWidth 32 := by
    intro b k hk
    exact bitSteps_shl k _ (fun j hj => byte_high b j (by omega)) (by omega)
  have a1 : bitSteps 32 (b1.setWidth 32 <<< 8) = bitSteps 24 (b1.setWidth 32) := by
    have := bitSteps_add 8 24 (b1.setWidth 32 <<< 8)
    rw [hb _ 8 (by omega)] at this; exact this
  have a2 : bitSteps 32 (b2.setWidth 32 <<< 16) = bitSteps 16 (b2.setWidth 32) := by
    have := bitSteps_add 16 16 (b2.setWidth 32 <<< 16)
    rw [hb _ 16 (by omega)] at this; exact this
  have a3 : bitSteps 32 (b3.setWidth 32 <<< 24) = bitSteps 8 (b3.setWidth 32) := by
    have := bitSteps_add 24 8 (b3.setWidth 32 <<< 24)
    rw [hb _ 24 (by omega)] at this; exact this
  simp only [bitSteps_xor, a1, a2, a3]
  simp only [← bitSteps_add]
  simp only [show 8 + 8 = 16 from rfl, show 16 + 8 = 24 from rfl, show 24 + 8 = 32 from rfl]
  ac_rfl

theorem foldl_byteStep (l : List (BitVec 8)) (crc) : l.foldl byteStep crc = l.foldl feedByte crc := by
  congr 1; funext c b; exact byteStep_eq c b

theorem wordLoop_eq (crc : BitVec 32) (l : List (BitVec 8)) : wordLoop crc l = l.foldl feedByte crc := by
  fun_induction wordLoop crc l with
  | case1 crc b0 b1 b2 b3 rest ih =>
    rw [ih, wordStep_bytes]; rfl
  | case2 crc rest h => exact foldl_byteStep _ _

theorem crcSlice_eq (crc : BitVec 32) (align : Nat) (l : List (BitVec 8)) :
    crcSlice crc align l = l.foldl feedByte crc := by
  unfold crcSlice
  split
  · simp only [wordLoop_eq, foldl_byteStep, ← List.foldl_append, List.take_append_drop]
  · exact wordLoop_eq _ _

/-! ### Combine -/

/-- Columns of a linear operator: `f` applied to the unit vectors from bit `s` on. -/
def cols (f : BitVec 32 → BitVec 32) (s : Nat) : List (BitVec 32) :=
  (List.range (32 - s)).map (fun n => f (1#32 <<< (s + n)))

structure Linear (f : BitVec 32 → BitVec 32) : Prop where
  xor : ∀ x y, f (x ^^^ y) = f x ^^^ f y
  zero : f 0#32 = 0#32

theorem cols_cons (f) (s : Nat) (h : s < 32) : cols f s = f (1#32 <<< s) :: cols f (s + 1) := by
  unfold cols
  rw [show 32 - s = (32 - (s + 1)) + 1 by omega, List.range_succ_eq_map]
  simp [List.map_map, Function.comp_def, Nat.add_assoc, Nat.add_comm 1]

theorem vec_split (v : BitVec 32) (s : Nat) :
    v <<< s = (if v &&& 1#32 ≠ 0#32 then 1#32 <<< s else 0#32) ^^^ ((v >>> 1) <<< (s + 1)) := by
  have hv : v &&& 1#32 ≠ 0#32 ↔ v.getLsbD 0 = true := by
    have : v &&& 1#32 = if v.getLsbD 0 then 1#32 else 0#32 := by
      apply BitVec.eq_of_getLsbD_eq
      intro i hi
      by_cases h0 : i = 0
      · subst h0
        rw [BitVec.getLsbD_and]; cases v.getLsbD 0 <;> decide
      · cases v.getLsbD 0 <;> simp [BitVec.getLsbD_one, h0]
    rw [this]; cases v.getLsbD 0 <;> simp
  simp only [hv]
  apply BitVec.eq_of_getLsbD_eq
  intro i hi
  have h1 : ∀ j, (1#32 <<< s).getLsbD j = (decide (j < 32) && decide (j = s)) := by
    intro j
    simp only [BitVec.getLsbD_shiftLeft, BitVec.getLsbD_one]
    by_cases hj : j < 32 <;> by_cases hs : j < s <;> simp [hj, hs] <;> omega
  rw [BitVec.getLsbD_xor]
  have h2 : (if v.getLsbD 0 = true then 1#32 <<< s else 0#32).getLsbD i = (v.getLsbD 0 && decide (i = s)) := by
    cases v.getLsbD 0 <;> simp only [Bool.false_eq_true, if_false, if_true, h1, hi] <;> simp
  rw [h2]
  simp only [BitVec.getLsbD_shiftLeft, BitVec.getLsbD_ushiftRight, hi, decide_true, Bool.true_and]
  rcases Nat.lt_trichotomy i s with h | h | h
  · simp [h, show i < s + 1 by omega, show i ≠ s by omega]
  · subst h; simp
  · simp [show ¬ i < s by omega, show ¬ i < s + 1 by omega, show i ≠ s by omega,
      show 1 + (i - (s + 1)) = i - s by omega]

theorem matTimes_cols (f) (hf : Linear f) : ∀ (k s : Nat) (v sum : BitVec 32), s + k = 32 →
    (∀ j, k ≤ j → v.getLsbD j = false) →
    matTimes (cols f s) v sum = some (sum ^^^ f (v <<< s)) := by
  intro k
  induction k with
  | zero =>
    intro s v sum hs hv
    have : v = 0#32 := by
      apply BitVec.eq_of_getLsbD_eq; intro i _; rw [hv i (by omega)]; simp
    subst this
    unfold matTimes; simp [hf.zero]
  | succ k ih =>
    intro s v sum hs hv
    unfold matTimes
    by_cases h0 : v = 0#32
    · subst h0; simp [hf.zero]
    · simp only [h0, if_false]
      rw [cols_cons f s (by omega)]
      simp only
      rw [ih (s + 1) (v >>> 1) _ (by omega) (by
        intro j hj; rw [BitVec.getLsbD_ushiftRight]; exact hv _ (by omega))]
      conv => rhs; rw [vec_split v s, hf.xor]
      by_cases hb : v &&& 1#32 ≠ 0#32
      · simp only [hb, if_true, not_false_eq_true, ne_eq, BitVec.xor_assoc]
      · simp only [hb, if_false, hf.zero, BitVec.zero_xor]

theorem matTimes_full (f) (hf : Linear f) (v : BitVec 32) :
    matTimes (cols f 0) v 0#32 = some (f v) := by
  rw [matTimes_cols f hf 32 0 v 0#32 rfl (fun j hj => BitVec.getLsbD_of_ge _ _ hj)]
  simp

theorem matSquare_cols (f) (hf : Linear f) : matSquare (cols f 0) = some (cols (f ∘ f) 0) := by
  unfold matSquare
  have : (fun row => matTimes (cols f 0) row 0#32) = fun row => some (f row) := by
    funext row; exact matTimes_full f hf row
  rw [this]
  have hm : ∀ l : List (BitVec 32), l.mapM (m := Option) (fun row => some (f row)) = some (l.map f) := by
    intro l
    induction l with
    | nil => rfl
    | cons a l ih => simp [List.mapM_cons, ih]
  rw [hm]
  simp [cols, List.map_map, Function.comp_def]

theorem linear_bitSteps (n : Nat) : Linear (bitSteps n) := ⟨bitSteps_xor n, bitSteps_zero n⟩

theorem bitSteps_comp (n : Nat) : bitSteps n ∘ bitSteps n = bitSteps (n + n) := by
  funext x; simp [bitSteps_add]

theorem oneZeroBit_eq : oneZeroBit = cols (bitSteps 1) 0 := by decide +kernel

theorem combineLoop_eq (fuel : Nat) : ∀ (m : Nat) (crc1 : BitVec 32) (len2 : Nat), len2 < 2 ^ fuel →
    0 < fuel → combineLoop fuel (cols (bitSteps m) 0) crc1 len2 = some (bitSteps (2 * m * len2) crc1) := by
  induction fuel with
  | zero => intro _ _ _ _ h; omega
  | succ fuel ih =>
    intro m crc1 len2 hlen _
    unfold combineLoop
    rw [matSquare_cols _ (linear_bitSteps m), bitSteps_comp]
    have hm : m + m = 2 * m := by omega
    simp only [Option.bind_eq_bind, Option.bind_some, Option.pure_def, hm]
    have step : ∀ (k : BitVec 32 → Option (BitVec 32)),
        (if len2 % 2 = 1 then (matTimes (cols (bitSteps (2 * m)) 0) crc1 0#32).bind k else k crc1) = k (bitSteps (2 * m * (len2 % 2)) crc1) := by
      intro k
      split
      · rename_i h; rw [matTimes_full _ (linear_bitSteps _), h]; simp
      · rename_i h; rw [show len2 % 2 = 0 by omega]; simp [bitSteps]
    rw [step (fun crc1 => if len2 / 2 = 0 then some crc1 else combineLoop fuel (cols (bitSteps (2 * m)) 0) crc1 (len2 / 2))]
    split
    · rename_i h
      have : len2 % 2 = len2 := by omega
      rw [this]
    · rename_i h
      rw [ih (2 * m) _ (len2 / 2) (by rw [Nat.pow_succ] at hlen; omega) (by
        rcases Nat.eq_zero_or_pos fuel with h0 | h0
        · subst h0; simp at hlen; omega
        · exact h0)]
      rw [← bitSteps_add]
      congr 2
      have : len2 = len2 % 2 + 2 * (len2 / 2) := by omega
      conv => rhs; rw [this]
      rw [Nat.mul_add]
      congr 1
      rw [show 2 * (2 * m) = 2 * m * 2 by omega, Nat.mul_assoc (2 * m)]

theorem combine_eq (crc1 crc2 : BitVec 32) (len2 : Nat) (h0 : 0 < len2) (h : len2 < 2 ^ 32) :
    combine crc1 crc2 len2 = some (bitSteps (8 * len2) crc1 ^^^ crc2) := by
  unfold combine
  rw [if_neg (by omega), oneZeroBit_eq, matSquare_cols _ (linear_bitSteps 1), bitSteps_comp]
  simp only [bind, Option.bind]
  rw [matSquare_cols _ (linear_bitSteps _), bitSteps_comp]
  simp only
  rw [combineLoop_eq 33 _ _ _ (by omega) (by omega)]
  rfl

theorem foldl_feed (l : List (BitVec 8)) : ∀ c d, l.foldl feedByte (c ^^^ d) =
    bitSteps (8 * l.length) c ^^^ l.foldl feedByte d := by
  induction l with
  | nil => intro c d; simp [bitSteps]
  | cons b l ih =>
    intro c d
    simp only [List.foldl_cons, List.length_cons]
    rw [show feedByte (c ^^^ d) b = bitSteps 8 c ^^^ feedByte d b by
      unfold feedByte; rw [BitVec.xor_assoc, bitSteps_xor]]
    rw [ih, ← bitSteps_add]
    congr 2; omega

theorem not_eq_xor (x : BitVec 32) : ~~~ x = x ^^^ 0xFFFFFFFF#32 := by
  rw [show (0xFFFFFFFF#32) = BitVec.allOnes 32 by decide, BitVec.xor_allOnes]

end Verif.Crc
