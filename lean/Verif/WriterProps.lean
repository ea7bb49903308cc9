import Verif.Writer
import Verif.DecoderProps
/-! C33: writing a decoded article stays within its segment, and what the segment contains afterwards. -/
namespace Verif.Writer
open Verif.Decoder CStr

/-- Specification: the longest run of chunks from the first that fits into `n` bytes; everything from
the first chunk that does not fit is dropped. -/
def fitting : Nat → List Bytes → Bytes
  | _, [] => []
  | n, c :: cs => if c.length ≤ n then c ++ fitting (n - c.length) cs else []

theorem fitting_length (n : Nat) (cs : List Bytes) : (fitting n cs).length ≤ n := by
  induction cs generalizing n with
  | nil => simp [fitting]
  | cons c cs ih =>
    unfold fitting
    by_cases h : c.length ≤ n
    · rw [if_pos h]; have := ih (n - c.length); simp; omega
    · rw [if_neg h]; simp

theorem fitting_prefix (n : Nat) (cs : List Bytes) : fitting n cs <+: cs.flatten := by
  induction cs generalizing n with
  | nil => simp [fitting]
  | cons c cs ih =>
    unfold fitting
    by_cases h : c.length ≤ n
    · rw [if_pos h, List.flatten_cons]; exact (List.prefix_append_right_inj c).mpr (ih _)
    · rw [if_neg h]; exact List.nil_prefix

theorem fitting_all (n : Nat) (cs : List Bytes) (h : cs.flatten.length ≤ n) : fitting n cs = cs.flatten := by
  induction cs generalizing n with
  | nil => rfl
  | cons c cs ih =>
    simp only [List.flatten_cons, List.length_append] at h
    unfold fitting
    rw [if_pos (by omega), ih _ (by omega), List.flatten_cons]

theorem writes_over (w : W) (cs : List Bytes) (h : w.size < w.ptr) :
    writes w cs = some { w with ptr := w.ptr + cs.flatten.length } := by
  induction cs generalizing w with
  | nil => rfl
  | cons c cs ih =>
    unfold writes write
    dsimp only
    rw [if_pos (by omega)]
    simp only [bind, Option.bind]
    rw [ih _ (by show w.size < w.ptr + c.length; omega)]
    simp only [List.flatten_cons, List.length_append, Nat.add_assoc]

theorem writes_cached (w : W) (cs : List Bytes) (pre : Bytes) (hp : w.ptr = pre.length) (hle : pre.length ≤ w.size)
    (hb : w.buf = some (pre.map some ++ List.replicate (w.size - pre.length) none)) :
    ∃ n, writes w cs = some { w with ptr := w.ptr + cs.flatten.length, buf := some ((pre ++ fitting (w.size - pre.length) cs).map some ++ List.replicate n none) } ∧
      n + (pre ++ fitting (w.size - pre.length) cs).length = w.size := by
  induction cs generalizing w pre with
  | nil =>
    refine ⟨w.size - pre.length, ?_, ?_⟩
    · unfold writes fitting
      obtain ⟨a, b, c, d⟩ := w
      simp only at hb ⊢
      rw [hb]; simp
    · simp [fitting]; omega
  | cons c cs ih =>
    unfold writes write
    dsimp only
    unfold fitting
    by_cases h : c.length ≤ w.size - pre.length
    · rw [if_neg (by omega), hb]
      dsimp only
      have hm : memcpy (pre.map some ++ List.replicate (w.size - pre.length) none) (w.ptr + c.length - c.length) c =
          some ((pre ++ c).map some ++ List.replicate (w.size - (pre ++ c).length) none) := by
        unfold memcpy
        rw [if_pos (by simp; omega), Nat.add_sub_cancel, hp]
        congr 1
        rw [List.take_append_of_le_length (by simp), List.drop_append]
        simp only [List.length_map, List.length_append, List.map_append, List.drop_replicate]
        rw [List.take_of_length_le (by simp), List.drop_of_length_le (by simp)]
        simp only [List.nil_append, List.append_assoc]
        congr 3
        omega
      rw [hm, if_pos h]
      simp only [Option.map_some, bind, Option.bind]
      obtain ⟨n, h1, h2⟩ := ih { w with ptr := w.ptr + c.length, buf := some ((pre ++ c).map some ++ List.replicate (w.size - (pre ++ c).length) none) }
        (pre ++ c) (by simp [hp]) (by simp; omega) rfl
      refine ⟨n, ?_, ?_⟩
      · rw [h1]
        simp only [List.flatten_cons, List.length_append, List.append_assoc, Nat.add_assoc, Nat.sub_sub]
      · simp only [List.length_append, List.append_assoc, Nat.sub_sub] at h2 ⊢; exact h2
    · rw [if_pos (by omega), if_neg h]
      simp only [bind, Option.bind]
      rw [writes_over _ cs (by show w.size < w.ptr + c.length; omega)]
      refine ⟨w.size - pre.length, ?_, by simp; omega⟩
      simp only [List.flatten_cons, List.length_append, List.append_nil, Nat.add_assoc]
      rw [hb]

theorem writes_file (w : W) (cs : List Bytes) (hb : w.buf = none) (hle : w.ptr ≤ w.size) :
    writes w cs = some { w with ptr := w.ptr + cs.flatten.length, file := w.file ++ fitting (w.size - w.ptr) cs } := by
  induction cs generalizing w with
  | nil => simp [writes, fitting]
  | cons c cs ih =>
    unfold writes write fitting
    dsimp only
    by_cases h : c.length ≤ w.size - w.ptr
    · rw [if_neg (by omega), hb, if_pos h]
      simp only [bind, Option.bind]
      rw [ih ({ w with ptr := w.ptr + c.length, buf := none, file := w.file ++ c } : W) rfl (by show w.ptr + c.length ≤ w.size; omega)]
      simp only [List.flatten_cons, List.length_append, List.append_assoc, Nat.add_assoc, Nat.sub_sub]
    · rw [if_pos (by omega), if_neg h]
      simp only [bind, Option.bind]
      rw [writes_over _ cs (by show w.size < w.ptr + c.length; omega)]
      simp only [List.flatten_cons, List.length_append, List.append_nil, Nat.add_assoc]

/-- C33: whatever chunks the decoder delivers and whatever size was announced, no byte is stored outside
of the buffer of the segment (the result is defined), and a file gets at most the announced size. -/
theorem write_stays_in_segment (size : Nat) (cached : Bool) (chunks : List Bytes) :
    ∃ w, writes (start size cached) chunks = some w ∧ w.ptr = chunks.flatten.length ∧
      (cached = true → ∃ b, w.buf = some b ∧ b.length = size) ∧
      (cached = false → w.file.length ≤ size) := by
  cases cached with
  | true =>
    obtain ⟨n, h1, h2⟩ := writes_cached (start size true) chunks [] rfl (by simp) (by simp [start])
    refine ⟨_, h1, by simp [start], fun _ => ⟨_, rfl, ?_⟩, fun h => nomatch h⟩
    rw [List.length_append, List.length_map, List.length_replicate, Nat.add_comm]; exact h2
  | false =>
    refine ⟨_, writes_file (start size false) chunks rfl (Nat.zero_le _), by simp [start], (fun h => nomatch h), fun _ => ?_⟩
    show ([] ++ fitting (size - 0) chunks).length ≤ size
    rw [List.nil_append]; exact fitting_length _ _

example : writes (start 5 true) [[1, 2], [3, 4, 5, 6], [7]] =
    some { size := 5, ptr := 7, buf := some [some 1, some 2, none, none, none] } := by decide

/-- An article no larger than announced is stored completely, byte for byte, in the cache or in the file,
whatever the sizes of the chunks. -/
theorem content_complete (size : Nat) (chunks : List Bytes) (h : chunks.flatten.length ≤ size) :
    (∃ w, writes (start size true) chunks = some w ∧ finishCached w = some (chunks.flatten.map some)) ∧
    (∃ w, writes (start size false) chunks = some w ∧ w.file = chunks.flatten ∧ w.ptr = chunks.flatten.length) := by
  constructor
  · obtain ⟨n, h1, h2⟩ := writes_cached (start size true) chunks [] rfl (by simp) (by simp [start])
    refine ⟨_, h1, ?_⟩
    have hs : (start size true).size = size := rfl
    simp only [hs, List.nil_append, List.length_nil, Nat.sub_zero] at h2 ⊢
    rw [fitting_all _ _ h] at h2 ⊢
    unfold finishCached
    simp only [Option.map_some]
    have hp : (start size true).ptr = 0 := rfl
    rw [hp]
    by_cases he : size ≠ 0 + chunks.flatten.length
    · rw [if_pos he]
      unfold resize
      clear h1
      generalize chunks.flatten = data at *
      rw [List.take_append_of_le_length (by simp), List.take_of_length_le (by simp)]
      simp
    · rw [if_neg he]
      have : n = 0 := by omega
      simp [this]
  · refine ⟨_, writes_file (start size false) chunks rfl (Nat.zero_le _), ?_, by simp [start]⟩
    show [] ++ fitting (size - 0) chunks = _
    rw [List.nil_append]; exact fitting_all _ _ h

example : [[1, 2], [3, 4, 5]].flatten.length ≤ 6 ∧
    (writes (start 6 true) [[1, 2], [3, 4, 5]]).bind finishCached = some [some 1, some 2, some 3, some 4, some 5] := by decide

/-- An article larger than announced loses everything from the first chunk that does not fit. In the
cache the missing bytes are replaced by whatever the memory contained: the segment is enlarged to the
number of received bytes and its tail was never written. In a file they are missing. -/
theorem content_of_too_large (size : Nat) (chunks : List Bytes) (h : size < chunks.flatten.length) :
    (∃ w k, writes (start size true) chunks = some w ∧ 0 < k ∧
      finishCached w = some ((fitting size chunks).map some ++ List.replicate k none) ∧
      k + (fitting size chunks).length = chunks.flatten.length) ∧
    (∃ w, writes (start size false) chunks = some w ∧ w.file = fitting size chunks ∧ w.ptr = chunks.flatten.length) := by
  constructor
  · obtain ⟨n, h1, h2⟩ := writes_cached (start size true) chunks [] rfl (by simp) (by simp [start])
    have hs : (start size true).size = size := rfl
    have hp : (start size true).ptr = 0 := rfl
    simp only [hs, hp, List.nil_append, List.length_nil, Nat.sub_zero, Nat.zero_add] at h1 h2
    have hl := fitting_length size chunks
    refine ⟨_, chunks.flatten.length - (fitting size chunks).length, h1, by omega, ?_, by omega⟩
    unfold finishCached
    simp only [Option.map_some]
    rw [if_pos (by omega)]
    unfold resize
    generalize chunks.flatten.length = m at *
    rw [List.take_of_length_le (by simp; omega), List.append_assoc, List.replicate_append_replicate]
    simp; omega
  · refine ⟨_, writes_file (start size false) chunks rfl (Nat.zero_le _), ?_, by simp [start]⟩
    show [] ++ fitting (size - 0) chunks = _
    rw [List.nil_append]; rfl

example : 3 < [[1, 2], [3, 4, 5]].flatten.length ∧
    (writes (start 3 true) [[1, 2], [3, 4, 5]]).bind finishCached = some [some 1, some 2, none, none, none] := by decide

/-- The comment in the code (ArticleWriter.cpp:156-158) says that such an article is rejected by the
decoder. It is not: this article of a multi-part post announces the positions 1 to 1 and delivers two
bytes with a correct size and checksum at the end. It is accepted; with the cache its segment is two
bytes of memory that were never written, without it nothing is written. -/
theorem mislabelled_article : ∃ (article : Bytes) (d : Dec) (data : Bytes) (size : Nat),
    receive (fresh true) [article] [] = some (d, data) ∧ check d = .finished ∧ d.crc = true ∧
    yencSize d.beginPos d.endPos = some size ∧
    (writes (start size true) [data]).bind finishCached = some [none, none] ∧
    (writes (start size false) [data]).map (·.file) = some [] := by
  refine ⟨lit "=ybegin part=1 line=128 size=9 name=x\r\n=ypart begin=1 end=1\r\nkk\r\n=yend size=2 pcrc32=a9601dbd\r\n.\r\n",
    ((receive (fresh true) [lit "=ybegin part=1 line=128 size=9 name=x\r\n=ypart begin=1 end=1\r\nkk\r\n=yend size=2 pcrc32=a9601dbd\r\n.\r\n"] []).getD (fresh true, [])).1,
    [65, 65], 1, ?_⟩
  decide +kernel

/-- For a single-part article the positions are 1 and the announced file size, which the decoder does
compare with the number of decoded bytes; and for every multi-part article whose announced positions span
the announced part size the segment has the right size. -/
theorem yencSize_exact (b n : Nat) (hb : 0 < b) (hn : 0 < n) (hmax : n ≤ 1024 * 1024 * 1024) :
    yencSize b ((b : Int) + n - 1) = some n := by
  unfold yencSize
  rw [if_neg (by omega)]
  have h1 : ((b : Int) + n - 1 - b + 1) = (n : Int) := by omega
  have h2 : (n : Int).bmod (2 ^ 32) = n := by
    apply Int.bmod_eq_of_le <;> omega
  dsimp only
  rw [h1, h2, if_neg (by omega)]
  simp

example : yencSize 501 503 = some 3 := by decide

/-- No segment is empty or larger than a gigabyte, and an article which announces no position is refused. -/
theorem yencSize_bounds (b e : Int) :
    (∀ n, yencSize b e = some n → 0 < n ∧ n ≤ 1024 * 1024 * 1024) ∧ (b = 0 ∨ e = 0 → yencSize b e = none) ∧
    (e < b → b - e < 2 ^ 31 → yencSize b e = none) := by
  refine ⟨?_, ?_, ?_⟩
  · intro n h
    unfold yencSize at h
    split at h
    · exact nomatch h
    · dsimp only at h
      split at h
      · exact nomatch h
      · injection h with h
        omega
  · intro h
    unfold yencSize
    rw [if_pos h]
  · intro h h2
    unfold yencSize
    split
    · rfl
    · dsimp only
      have : (e - b + 1).bmod (2 ^ 32) = e - b + 1 := by apply Int.bmod_eq_of_le <;> omega
      rw [this, if_pos (by omega)]

/-- The conversion to a 32 bit number lets absurd positions through: an article said to span four
gigabytes and one byte gets a segment of one byte. -/
theorem yencSize_wraps (b n : Nat) (hb : 0 < b) (hn : 0 < n) (hmax : n ≤ 1024 * 1024 * 1024) :
    yencSize b ((b : Int) + n - 1 + 2 ^ 32) = some n := by
  unfold yencSize
  rw [if_neg (by omega)]
  have h1 : ((b : Int) + n - 1 + 2 ^ 32 - b + 1) = (n : Int) + 2 ^ 32 := by omega
  have h2 : ((n : Int) + 2 ^ 32).bmod (2 ^ 32) = (n : Int) := by
    rw [show (n : Int) + 2 ^ 32 = n + (2 ^ 32 : Nat) by omega, Int.add_bmod_right]
    apply Int.bmod_eq_of_le <;> omega
  dsimp only
  rw [h1, h2, if_neg (by omega)]
  simp

/-- The two halves put together: every article as the built-in server sends it, cut into buffers in any
way, is received with exactly the announced positions, gets a segment of exactly its size and is stored
completely. `writesOf` are the chunks handed to the writer. -/
theorem served_article_stored (part fileSize offset : Nat) (name data : Bytes) (crcCheck : Bool)
    (hname : ∀ b ∈ name, b ≠ 0 ∧ b ≠ 10 ∧ b ≠ 13) (hd : data ≠ []) (hmax : data.length ≤ 1024 * 1024 * 1024)
    (hfs : fileSize < 2 ^ 63) (hoff : offset + data.length + 1 < 2 ^ 63)
    (chunks : List Bytes) (h : chunks.flatten = serveArticle part fileSize offset name data)
    (writesOf : List Bytes) (hw : writesOf.flatten = data) :
    ∃ d, receive (fresh crcCheck) chunks [] = some (d, data) ∧ check d = .finished ∧
      yencSize d.beginPos d.endPos = some data.length ∧
      (∃ w, writes (start data.length true) writesOf = some w ∧ finishCached w = some (data.map some)) ∧
      (∃ w, writes (start data.length false) writesOf = some w ∧ w.file = data) := by
  obtain ⟨d, h1, h2, -, -, -, h3, h4, -⟩ := article_roundtrip part fileSize offset name data crcCheck hname hfs hoff chunks h
  have hpos : 0 < data.length := List.length_pos_iff.mpr hd
  refine ⟨d, h1, h2, ?_, ?_, ?_⟩
  · rw [h3, h4]
    have := yencSize_exact (offset + 1) data.length (by omega) hpos hmax
    rw [← this]
    congr 1
    omega
  · have := (content_complete data.length writesOf (by rw [hw]; exact Nat.le_refl _)).1
    rw [hw] at this; exact this
  · obtain ⟨w, h1, h2, -⟩ := (content_complete data.length writesOf (by rw [hw]; exact Nat.le_refl _)).2
    exact ⟨w, h1, by rw [h2, hw]⟩

example : [[4], [19, 65]].flatten = ([4, 19, 65] : Bytes) := rfl

end Verif.Writer
