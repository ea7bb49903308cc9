import Verif.CrcLemmas
/-!
Properties of the CRC code: C03, C04. `crc32` is the bit-serial specification (CrcSpec.lean);
`crcOfBlocks` and `combine` are the modelled implementation.
-/
namespace Verif.Crc

/-- C03: the CRC object, given any blocks at any addresses, computes the CRC-32 of the concatenation. -/
theorem crc_is_crc32 (blocks : List (Nat × List (BitVec 8))) :
    crcOfBlocks blocks = crc32 (blocks.map Prod.snd).flatten := by
  unfold crcOfBlocks crc32
  congr 1
  rw [show (~~~ 0#32) = 0xFFFFFFFF#32 by decide]
  generalize 0xFFFFFFFF#32 = c
  induction blocks generalizing c with
  | nil => rfl
  | cons b bs ih =>
    simp only [List.foldl_cons, List.map_cons, List.flatten_cons, List.foldl_append]
    rw [crcSlice_eq, ih]

/-- The classic check value: CRC-32 of "123456789" is 0xCBF43926, by the specification and by the
implementation with odd addresses and cuts. -/
example : crc32 [0x31, 0x32, 0x33, 0x34, 0x35, 0x36, 0x37, 0x38, 0x39] = 0xCBF43926#32 := by decide +kernel
example : crcOfBlocks [(3, [0x31, 0x32, 0x33, 0x34, 0x35, 0x36]), (1, [0x37, 0x38, 0x39])] = 0xCBF43926#32 := by
  decide +kernel

/-- C04: combining the CRC of `a`, the CRC of `b` and the length of `b` gives the CRC of `a ++ b`
(and never reads outside the matrices), for all byte strings; the length is an unsigned 32 bit
argument in the code. -/
theorem crc_combine (a b : List (BitVec 8)) (hb : b.length < 2 ^ 32) :
    combine (crc32 a) (crc32 b) b.length = some (crc32 (a ++ b)) := by
  by_cases h0 : b.length = 0
  · have : b = [] := List.length_eq_zero_iff.1 h0
    subst this; simp [combine]
  · rw [combine_eq _ _ _ (by omega) hb]
    congr 1
    unfold crc32
    rw [List.foldl_append]
    simp only [not_eq_xor]
    generalize List.foldl feedByte 0xFFFFFFFF#32 a = ra
    rw [bitSteps_xor]
    have e1 : List.foldl feedByte ra b = bitSteps (8 * b.length) ra ^^^ List.foldl feedByte 0#32 b := by
      have := foldl_feed b ra 0#32; simpa using this
    have e2 : List.foldl feedByte 0xFFFFFFFF#32 b =
        bitSteps (8 * b.length) 0xFFFFFFFF#32 ^^^ List.foldl feedByte 0#32 b := by
      have := foldl_feed b 0xFFFFFFFF#32 0#32; simpa using this
    rw [e1, e2]
    generalize bitSteps (8 * b.length) ra = x
    generalize bitSteps (8 * b.length) 0xFFFFFFFF#32 = y
    generalize List.foldl feedByte 0#32 b = z
    rw [show x ^^^ y ^^^ (y ^^^ z ^^^ 4294967295#32) = y ^^^ (y ^^^ (x ^^^ z ^^^ 4294967295#32)) by ac_rfl, xor_cancel]

example : combine (crc32 [0x31, 0x32, 0x33, 0x34, 0x35]) (crc32 [0x36, 0x37, 0x38, 0x39]) 4
    = some 0xCBF43926#32 := by decide +kernel

/-- C04: folding `Combine` over the article CRCs as `CompleteFileParts` does (ArticleWriter.cpp:472:
first article's CRC, then combined one by one) yields the CRC of the whole file. -/
theorem crc_of_segments (first : List (BitVec 8)) (segs : List (List (BitVec 8)))
    (h : ∀ s ∈ segs, s.length < 2 ^ 32) :
    segs.foldlM (fun c s => combine c (crc32 s) s.length) (crc32 first)
      = some (crc32 (first ++ segs.flatten)) := by
  induction segs generalizing first with
  | nil => simp
  | cons s segs ih =>
    simp only [List.foldlM_cons]
    rw [crc_combine first s (h s (by simp))]
    simp only [bind, Option.bind]
    rw [ih (first ++ s) (fun t ht => h t (by simp [ht]))]
    simp [List.append_assoc]

example : ∀ s ∈ [[0x36#8, 0x37#8], [0x38#8]], s.length < 2 ^ 32 := by decide

end Verif.Crc
