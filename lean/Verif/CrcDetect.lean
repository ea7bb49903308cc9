import Verif.CrcLemmas
/-! What CRC-32 detects: any change within four adjacent bytes. -/
namespace Verif.Crc

theorem bitStep_zero {x : BitVec 32} (h : bitStep x = 0#32) : x = 0#32 := by
  rw [bitStep_eq] at h
  have h31 := congrArg (fun v : BitVec 32 => v.getLsbD 31) h
  simp only [BitVec.getLsbD_xor, BitVec.getLsbD_ushiftRight] at h31
  have hl : x.getLsbD 0 = false := by
    cases hx : x.getLsbD 0 with
    | false => rfl
    | true =>
      rw [hx, if_pos rfl, BitVec.getLsbD_of_ge x (1 + 31) (by omega)] at h31
      exact absurd h31 (by decide)
  rw [hl, if_neg Bool.false_ne_true, BitVec.xor_zero] at h
  apply BitVec.eq_of_getLsbD_eq
  intro i _
  rw [BitVec.getLsbD_zero]
  cases i with
  | zero => exact hl
  | succ i =>
    have := congrArg (fun v : BitVec 32 => v.getLsbD i) h
    simp only [BitVec.getLsbD_ushiftRight, BitVec.getLsbD_zero] at this
    rw [Nat.add_comm] at this
    exact this

theorem bitSteps_null : ∀ (n : Nat) {x : BitVec 32}, bitSteps n x = 0#32 → x = 0#32
  | 0, _, h => h
  | n + 1, _, h => bitStep_zero (bitSteps_null n h)

theorem xor_eq_zero {x y : BitVec 32} (h : x ^^^ y = 0#32) : x = y := by
  have := congrArg (fun v => x ^^^ v) h
  simp only [xor_cancel, BitVec.xor_zero] at this
  exact this.symm

theorem bitSteps_inj (n : Nat) {x y : BitVec 32} (h : bitSteps n x = bitSteps n y) : x = y := by
  apply xor_eq_zero
  apply bitSteps_null n
  rw [bitSteps_xor, h, BitVec.xor_self]

theorem xor_left_cancel {c x y : BitVec 32} (h : c ^^^ x = c ^^^ y) : x = y := by
  rw [← xor_cancel c x, h, xor_cancel]

theorem feedByte_state_inj {c d : BitVec 32} {b : BitVec 8} (h : feedByte c b = feedByte d b) : c = d := by
  unfold feedByte at h
  have := bitSteps_inj 8 h
  rw [BitVec.xor_comm c, BitVec.xor_comm d] at this
  exact xor_left_cancel this

theorem feed_state_inj : ∀ (l : List (BitVec 8)) {c d : BitVec 32}, l.foldl feedByte c = l.foldl feedByte d → c = d
  | [], _, _, h => h
  | _ :: l, _, _, h => feedByte_state_inj (feed_state_inj l h)

theorem load32_inj {a0 a1 a2 a3 b0 b1 b2 b3 : BitVec 8} (h : load32 a0 a1 a2 a3 = load32 b0 b1 b2 b3) : a0 = b0 ∧ a1 = b1 ∧ a2 = b2 ∧ a3 = b3 := by
  have hb : ∀ i, (load32 a0 a1 a2 a3).getLsbD i = (load32 b0 b1 b2 b3).getLsbD i := fun i => by rw [h]
  have key : ∀ (b0 b1 b2 b3 : BitVec 8) (i : Nat), i < 8 → (load32 b0 b1 b2 b3).getLsbD i = b0.getLsbD i ∧ (load32 b0 b1 b2 b3).getLsbD (i + 8) = b1.getLsbD i ∧
      (load32 b0 b1 b2 b3).getLsbD (i + 16) = b2.getLsbD i ∧ (load32 b0 b1 b2 b3).getLsbD (i + 24) = b3.getLsbD i := by
    intro b0 b1 b2 b3 i hi
    unfold load32
    simp only [BitVec.getLsbD_or, BitVec.getLsbD_shiftLeft, BitVec.getLsbD_setWidth]
    have big : ∀ (b : BitVec 8) (k : Nat), 8 ≤ k → b.getLsbD k = false := fun b k hk => BitVec.getLsbD_of_ge b k hk
    refine ⟨?_, ?_, ?_, ?_⟩
    · simp [hi, show i < 32 by omega, show i < 16 by omega, show i < 24 by omega]
    · simp [show i + 8 < 32 by omega, show i + 8 < 16 by omega, show i + 8 < 24 by omega, show i < 32 by omega, show ¬ i + 8 < 8 by omega]
    · simp [show i + 16 < 32 by omega, show ¬ i + 16 < 16 by omega, show i + 16 < 24 by omega, show ¬ i + 16 < 8 by omega, show i < 32 by omega]
    · simp [show i + 24 < 32 by omega, show ¬ i + 24 < 24 by omega, show i < 32 by omega, show ¬ i + 24 < 16 by omega, show ¬ i + 24 < 8 by omega]
  refine ⟨?_, ?_, ?_, ?_⟩ <;> apply BitVec.eq_of_getLsbD_eq <;> intro i hi
  · rw [← (key a0 a1 a2 a3 i hi).1, hb, (key b0 b1 b2 b3 i hi).1]
  · rw [← (key a0 a1 a2 a3 i hi).2.1, hb, (key b0 b1 b2 b3 i hi).2.1]
  · rw [← (key a0 a1 a2 a3 i hi).2.2.1, hb, (key b0 b1 b2 b3 i hi).2.2.1]
  · rw [← (key a0 a1 a2 a3 i hi).2.2.2, hb, (key b0 b1 b2 b3 i hi).2.2.2]

theorem feed4_inj {c : BitVec 32} {w v : List (BitVec 8)} (hl : w.length = v.length) (h4 : w.length ≤ 4) (h : w.foldl feedByte c = v.foldl feedByte c) : w = v := by
  have key : ∀ w v : List (BitVec 8), w.length = 4 → v.length = 4 → w.foldl feedByte c = v.foldl feedByte c → w = v := by
    intro w v hw hv h
    match w, v, hw, hv with
    | [a0, a1, a2, a3], [b0, b1, b2, b3], _, _ =>
      rw [← wordStep_bytes, ← wordStep_bytes, wordStep_eq, wordStep_eq] at h
      have := bitSteps_inj 32 h
      rw [BitVec.xor_comm, BitVec.xor_comm (load32 b0 b1 b2 b3)] at this
      obtain ⟨h0, h1, h2, h3⟩ := load32_inj (xor_left_cancel this)
      rw [h0, h1, h2, h3]
  have hz := key (w ++ List.replicate (4 - w.length) 0#8) (v ++ List.replicate (4 - w.length) 0#8) (by simp; omega) (by simp; omega)
    (by rw [List.foldl_append, List.foldl_append, h])
  exact List.append_cancel_right hz

/-- A change of up to four adjacent bytes changes the CRC. -/
theorem crc_burst (a w v z : List (BitVec 8)) (hl : w.length = v.length) (h4 : w.length ≤ 4) (h : crc32 (a ++ w ++ z) = crc32 (a ++ v ++ z)) : w = v := by
  unfold crc32 at h
  have h := BitVec.not_inj.1 h
  rw [List.foldl_append, List.foldl_append, List.foldl_append, List.foldl_append] at h
  exact feed4_inj hl h4 (feed_state_inj z h)

/-- Appending the same bytes neither hides nor causes a difference. -/
theorem crc_append_inj (a b z : List (BitVec 8)) : crc32 (a ++ z) = crc32 (b ++ z) ↔ crc32 a = crc32 b := by
  unfold crc32
  rw [BitVec.not_inj, BitVec.not_inj, List.foldl_append, List.foldl_append]
  exact ⟨fun h => feed_state_inj z h, fun h => by rw [h]⟩

example : crc32 [1, 2, 3] ≠ crc32 [1, 2, 4] := by decide +kernel

end Verif.Crc
