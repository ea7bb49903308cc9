import Verif.Rar5
/-
C91: when the reading of rar-files ends and is defined, and where it is not.
-/
namespace Verif.Rar
open CStr

/-- The reading of every file ends after at most as many rounds as the file has bytes, unless a block of the file
claims to be shorter than what was already read of it. -/
theorem reading_ends_partial (f : Bytes) (h : read f (f.length + 1) = none) :
    ∃ step v pos v' pos' t, (step = step3 ∨ step = step5) ∧ step v f pos 0 = .ok ((false, v'), pos', t) ∧ asInt64 t < 0 := by
  apply Classical.byContradiction
  intro hno
  have key : ∀ step : Vol → Rd (Bool × Vol), (step = step3 ∨ step = step5) →
      ∀ v pos v' pos' t, step v f pos 0 = .ok ((false, v'), pos', t) → 0 ≤ asInt64 t := by
    intro step hs v pos v' pos' t e
    apply Classical.byContradiction
    intro hneg
    exact hno ⟨step, v, pos, v', pos', t, hs, e, by omega⟩
  have done : ∀ step : Vol → Rd (Bool × Vol), (step = step3 ∨ step = step5) → (∀ v, Round (step v)) → ∀ pos,
      loop step f (f.length + 1) {} pos ≠ none := by
    intro step hs hr pos e
    cases loop_ends step hr f (key step hs) (f.length + 1) {} pos (by omega) with
    | inl h => rw [e] at h; cases h
    | inr h => omega
  unfold read at h
  split at h
  · exact done step3 (.inl rfl) step3_round 0 h
  · split at h
    · exact done step5 (.inr rfl) step5_round 8 h
    · cases h

theorem two_bytes (a b : UInt8) : leN 2 (a.toNat + 256 * b.toNat) = [a, b] := by
  have ha := a.toNat_lt
  have hb := b.toNat_lt
  show [UInt8.ofNat (a.toNat + 256 * b.toNat), UInt8.ofNat ((a.toNat + 256 * b.toNat) / 256)] = [a, b]
  have e1 : UInt8.ofNat (a.toNat + 256 * b.toNat) = a := by
    apply UInt8.toNat_inj.mp
    simp
  have e2 : UInt8.ofNat ((a.toNat + 256 * b.toNat) / 256) = b := by
    apply UInt8.toNat_inj.mp
    simp
    omega
  rw [e1, e2]

theorem bind_of {α β : Type} {m : Rd α} {k : α → Rd β} {f : Bytes} {pos p : Nat} {t t' : Int} {a : α}
    (h : m f pos t = .ok (a, p, t')) : (m >>= k) f pos t = k a f p t' := by
  show Rd.bind m k f pos t = _
  rw [Rd.bind, h]

/-- The reading does not end for any file which begins like this: a block of version 3 with size 0. -/
theorem endless_version_3 (c1 c2 : UInt8) (rest : Bytes) (hl : rest.length < 2 ^ 61) (fuel : Nat) :
    read (sig3 ++ ([c1, c2, 0x75, 0, 0, 0, 0] ++ rest)) fuel = none := by
  have hver := version_sig3 ([c1, c2, 0x75, 0, 0, 0, 0] ++ rest) (by simp)
  rw [read, if_pos hver]
  generalize hf : sig3 ++ ([c1, c2, 0x75, 0, 0, 0, 0] ++ rest) = f
  have hlen : f.length < 2 ^ 62 := by
    rw [← hf]
    simp [sig3]
    omega
  have s7 : ∀ v, step3 v f 7 0 = .ok ((false, v), 7, -7) := by
    intro v
    have hb := reads_block3_short (c1.toNat + 256 * c2.toNat) 0x75 0 0 0 (by have := c1.toNat_lt; have := c2.toNat_lt; omega)
      (by omega) (by omega) (by omega) (by decide) f sig3 rest (by rw [two_bytes, ← hf]; rfl) hlen
    rw [two_bytes] at hb
    show (block3 >>= _) f sig3.length 0 = _
    rw [bind_of hb]
    rfl
  have l7 : ∀ n v, loop step3 f n v 7 = none := by
    intro n
    induction n with
    | zero => intro v; rfl
    | succ n ih => intro v; rw [loop, s7]; exact ih v
  cases fuel with
  | zero => rfl
  | succ n =>
    obtain ⟨t, r⟩ := reads_sig3 {}
    have e := loop_step r f [] ([c1, c2, 0x75, 0, 0, 0, 0] ++ rest) hf.symm hlen n
    exact e.trans (l7 n {})

/-- The same for version 5: a service block which tells that its data are 2^64 - 5 bytes long. -/
theorem endless_version_5 (crc : Nat) (hc : crc < 2 ^ 32) (rest : Bytes) (hl : rest.length < 2 ^ 61) (fuel : Nat) :
    read (sig5 ++ ((leN 4 crc ++ [0, 3, 2, 0xfb, 0xff, 0xff, 0xff, 0xff, 0xff, 0xff, 0xff, 0xff, 1]) ++ rest)) fuel = none := by
  have hver := version_sig5 ((leN 4 crc ++ [0, 3, 2, 0xfb, 0xff, 0xff, 0xff, 0xff, 0xff, 0xff, 0xff, 0xff, 1]) ++ rest)
  rw [read, if_neg (by rw [hver]; decide), if_pos hver]
  generalize hf : sig5 ++ ((leN 4 crc ++ [0, 3, 2, 0xfb, 0xff, 0xff, 0xff, 0xff, 0xff, 0xff, 0xff, 0xff, 1]) ++ rest) = f
  have hlen : f.length < 2 ^ 62 := by
    rw [← hf]
    simp [sig5, leN_length]
    omega
  have he : leN 4 crc ++ (encV 0 ++ fields5 3 2 0 (2 ^ 64 - 5)) =
      leN 4 crc ++ [0, 3, 2, 0xfb, 0xff, 0xff, 0xff, 0xff, 0xff, 0xff, 0xff, 0xff, 1] := by
    congr 1
  have s8 : ∀ v, step5 v f 8 0 = .ok ((false, v), 8, 2 ^ 64 - 17) := by
    intro v
    have hb := reads_block5 crc 0 3 2 0 (2 ^ 64 - 5) 0 hc (by omega) (by omega) (by omega) (by omega) (by omega) f sig5 rest
      (by rw [he, hf]) hlen
    rw [he, List.length_append, leN_length] at hb
    show (block5 >>= _) f sig5.length 0 = _
    rw [bind_of hb]
    rfl
  have l8 : ∀ n v, loop step5 f n v 8 = none := by
    intro n
    induction n with
    | zero => intro v; rfl
    | succ n ih => intro v; rw [loop, s8]; exact ih v
  exact l8 fuel {}

/- Where reading is undefined -/

/-- Ten bytes with the highest bit set, and one more byte. -/
def LongNumber (f : Bytes) : Prop := ∃ p, p + 11 ≤ f.length ∧ ∀ i, i < 10 → 128 ≤ (f.getD (p + i) 0).toNat

/-- A reader which is undefined only for too long numbers. -/
def Def {α : Type} (m : Rd α) : Prop := ∀ f pos t, m f pos t = .undef → LongNumber f

theorem def_pure {α : Type} (a : α) : Def (pure a : Rd α) := fun _ _ _ h => nomatch h
theorem def_fail {α : Type} : Def (fail : Rd α) := fun _ _ _ h => nomatch h

theorem def_bind {α β : Type} {m : Rd α} {k : α → Rd β} (hm : Def m) (hk : ∀ a, Def (k a)) : Def (m >>= k) := by
  intro f pos t h
  have h : Rd.bind m k f pos t = .undef := h
  unfold Rd.bind at h
  split at h
  · exact hk _ _ _ _ h
  · cases h
  next e => exact hm _ _ _ e

theorem def_bytes (n : Nat) : Def (bytes n) := by
  intro f pos t h
  unfold bytes at h
  split at h <;> cases h

theorem def_uint (n : Nat) : Def (uint n) := def_bind (def_bytes n) fun _ => def_pure _
theorem def_setTrail (u : Int) : Def (setTrail u) := fun _ _ _ h => nomatch h
theorem def_getTrail : Def getTrail := fun _ _ _ h => nomatch h
theorem def_getFile : Def getFile := fun _ _ _ h => nomatch h

theorem uint1_ok {f : Bytes} {pos p : Nat} {t t' : Int} {b : Nat} (h : uint 1 f pos t = .ok (b, p, t')) :
    pos + 1 ≤ f.length ∧ p = pos + 1 ∧ b = (f.getD pos 0).toNat := by
  obtain ⟨x, p1, t1, e1, e2⟩ := bind_ok h
  unfold bytes at e1
  split at e1
  next hp =>
    cases e1
    cases e2
    refine ⟨hp, rfl, ?_⟩
    have : (f.drop pos).take 1 = [f[pos]] := by
      rw [List.drop_eq_getElem_cons (by omega)]
      rfl
    rw [this, List.getD_eq_getElem?_getD, List.getElem?_eq_getElem (by omega)]
    simp [le]
  next => cases e1

theorem uint1_not_undef (f : Bytes) (pos : Nat) (t : Int) : uint 1 f pos t ≠ .undef := by
  intro h
  have h : Rd.bind (bytes 1) _ f pos t = .undef := h
  unfold Rd.bind at h
  split at h
  · cases h
  · cases h
  next e => unfold bytes at e; split at e <;> cases e

theorem vintLoop_undef : ∀ k i acc f pos t, vintLoop k i acc f pos t = .undef →
    pos + k + 1 ≤ f.length ∧ ∀ j, j < k → 128 ≤ (f.getD (pos + j) 0).toNat := by
  intro k
  induction k with
  | zero =>
    intro i acc f pos t h
    have h : Rd.bind (uint 1) _ f pos t = .undef := h
    unfold Rd.bind at h
    split at h
    next e => exact ⟨(uint1_ok e).1, fun j hj => absurd hj (by omega)⟩
    · cases h
    next e => exact absurd e (uint1_not_undef _ _ _)
  | succ k ih =>
    intro i acc f pos t h
    have h : Rd.bind (uint 1) _ f pos t = .undef := h
    unfold Rd.bind at h
    split at h
    next b p t' e =>
      obtain ⟨h1, h2, h3⟩ := uint1_ok e
      subst h2
      dsimp only at h
      by_cases hb : 128 ≤ b
      · rw [if_pos hb] at h
        obtain ⟨h4, h5⟩ := ih _ _ _ _ _ h
        refine ⟨by omega, fun j hj => ?_⟩
        cases j with
        | zero => rw [Nat.add_zero, ← h3]; exact hb
        | succ j =>
          have := h5 j (by omega)
          rwa [show pos + 1 + j = pos + (j + 1) by omega] at this
      · rw [if_neg hb] at h
        cases h
    · cases h
    next e => exact absurd e (uint1_not_undef _ _ _)

theorem def_vint : Def vint := by
  intro f pos t h
  obtain ⟨h1, h2⟩ := vintLoop_undef 10 0 0 f pos t h
  exact ⟨pos, h1, h2⟩

theorem def_skip (s : Int) : Def (skip s) := by
  unfold skip
  split
  · exact def_bind (def_bytes _) fun _ => def_pure _
  · exact def_pure _

theorem def_seek : Def seek := by
  intro f pos t h
  unfold seek at h
  dsimp only at h
  split at h <;> cases h

theorem def_opt (c : Bool) (m : Rd Nat) (d : Nat) (h : Def m) : Def (opt c m d) := by
  unfold opt
  split
  · exact h
  · exact def_pure _

theorem def_skipIf (c : Bool) (s : Int) : Def (skipIf c s) := by
  unfold skipIf
  split
  · exact def_skip s
  · exact def_pure _

theorem def_time5 : Def time5 := by
  refine def_bind def_vint fun _ => ?_
  split
  · exact def_uint 4
  · exact def_bind (def_uint 4) fun _ => def_bind (def_uint 4) fun _ => def_pure _

theorem def_extra5 : ∀ k rem time, Def (extra5 k rem time) := by
  intro k
  induction k with
  | zero => intro rem time; exact def_fail
  | succ k ih =>
    intro rem time
    rw [extra5]
    split
    · exact def_pure _
    · exact def_bind def_getTrail fun _ => def_bind def_vint fun _ => def_bind def_getTrail fun _ =>
        def_bind def_vint fun _ => def_bind (def_opt _ _ _ def_time5) fun _ => def_bind def_getTrail fun _ =>
        def_bind (def_skip _) fun _ => ih _ _

theorem def_file5 (b : Block) : Def (file5 b) := by
  refine def_bind def_vint fun _ => def_bind def_vint fun _ => def_bind def_vint fun _ =>
    def_bind (def_opt _ _ _ (def_uint 4)) fun _ => def_bind (def_skipIf _ _) fun _ => def_bind def_vint fun _ =>
    def_bind def_vint fun _ => def_bind def_vint fun _ => ?_
  split
  · exact def_fail
  · exact def_bind (def_bytes _) fun _ => def_bind def_getFile fun _ =>
      def_bind (def_opt _ _ _ (def_extra5 _ _ _)) fun _ => def_pure _

theorem def_block5 : Def block5 :=
  def_bind (def_uint 4) fun _ => def_bind def_vint fun _ => def_bind (def_setTrail _) fun _ =>
    def_bind def_vint fun _ => def_bind def_vint fun _ => def_bind (def_opt _ _ _ def_vint) fun _ =>
    def_bind (def_opt _ _ _ def_vint) fun _ => def_bind def_getTrail fun _ => def_bind (def_setTrail _) fun _ => def_pure _

theorem def_step5 (v : Vol) : Def (step5 v) := by
  refine def_bind def_block5 fun b => ?_
  split
  · exact def_fail
  split
  · exact def_bind def_vint fun _ => def_bind (def_opt _ _ _ def_vint) fun _ => def_bind def_seek fun _ => def_pure _
  split
  · refine def_bind def_vint fun _ => ?_
    split
    · exact def_fail
    · exact def_bind def_vint fun _ => def_bind (def_bytes _) fun _ => def_fail
  split
  · exact def_bind (def_file5 _) fun _ => def_bind def_seek fun _ => def_pure _
  split
  · exact def_bind def_vint fun _ => def_pure _
  split
  · exact def_fail
  · exact def_bind def_seek fun _ => def_pure _

/-- A reader which is never undefined. -/
def Safe {α : Type} (m : Rd α) : Prop := ∀ f pos t, m f pos t ≠ .undef

theorem safe_pure {α : Type} (a : α) : Safe (pure a : Rd α) := fun _ _ _ h => nomatch h
theorem safe_fail {α : Type} : Safe (fail : Rd α) := fun _ _ _ h => nomatch h

theorem safe_bind {α β : Type} {m : Rd α} {k : α → Rd β} (hm : Safe m) (hk : ∀ a, Safe (k a)) : Safe (m >>= k) := by
  intro f pos t h
  have h : Rd.bind m k f pos t = .undef := h
  unfold Rd.bind at h
  split at h
  · exact hk _ _ _ _ h
  · cases h
  next e => exact hm _ _ _ e

theorem safe_bytes (n : Nat) : Safe (bytes n) := by
  intro f pos t h
  unfold bytes at h
  split at h <;> cases h

theorem safe_uint (n : Nat) : Safe (uint n) := safe_bind (safe_bytes n) fun _ => safe_pure _
theorem safe_setTrail (u : Int) : Safe (setTrail u) := fun _ _ _ h => nomatch h
theorem safe_getTrail : Safe getTrail := fun _ _ _ h => nomatch h

theorem safe_skip (s : Int) : Safe (skip s) := by
  unfold skip
  split
  · exact safe_bind (safe_bytes _) fun _ => safe_pure _
  · exact safe_pure _

theorem safe_seek : Safe seek := by
  intro f pos t h
  unfold seek at h
  dsimp only at h
  split at h <;> cases h

theorem safe_skipIf (c : Bool) (s : Int) : Safe (skipIf c s) := by
  unfold skipIf
  split
  · exact safe_skip s
  · exact safe_pure _

theorem safe_opt (c : Bool) (m : Rd Nat) (d : Nat) (h : Safe m) : Safe (opt c m d) := by
  unfold opt
  split
  · exact h
  · exact safe_pure _

theorem safe_file3 (flags : Nat) : Safe (file3 flags) := by
  refine safe_bind (safe_uint 4) fun _ => safe_bind (safe_skip _) fun _ => safe_bind (safe_skip _) fun _ =>
    safe_bind (safe_uint 4) fun _ => safe_bind (safe_skip _) fun _ => safe_bind (safe_uint 2) fun _ =>
    safe_bind (safe_uint 4) fun _ => safe_bind (safe_opt _ _ _ (safe_bind (safe_uint 4) fun _ => safe_bind safe_getTrail fun _ =>
      safe_bind (safe_setTrail _) fun _ => safe_uint 4)) fun _ => ?_
  split
  · exact safe_fail
  · exact safe_bind (safe_bytes _) fun _ => safe_pure _

theorem safe_block3 : Safe block3 := by
  refine safe_bind (safe_uint 2) fun _ => safe_bind (safe_uint 1) fun _ => safe_bind (safe_uint 2) fun _ =>
    safe_bind (safe_uint 2) fun _ => ?_
  split
  · exact safe_bind (safe_uint 4) fun _ => safe_bind (safe_setTrail _) fun _ => safe_pure _
  · exact safe_bind (safe_setTrail _) fun _ => safe_pure _

theorem safe_step3 (v : Vol) : Safe (step3 v) := by
  refine safe_bind safe_block3 fun b => ?_
  split
  · exact safe_fail
  split
  · split
    · exact safe_fail
    · exact safe_bind safe_seek fun _ => safe_pure _
  split
  · exact safe_bind (safe_file3 _) fun _ => safe_bind safe_seek fun _ => safe_pure _
  split
  · refine safe_bind (safe_skipIf _ _) fun _ => ?_
    split
    · exact safe_bind (safe_uint 4) fun _ => safe_pure _
    · exact safe_pure _
  split
  · exact safe_fail
  · exact safe_bind safe_seek fun _ => safe_pure _

theorem loop_undef (step : Vol → Rd (Bool × Vol)) (f : Bytes) : ∀ n v pos, loop step f n v pos = some .undef →
    ∃ v pos, step v f pos 0 = .undef := by
  intro n
  induction n with
  | zero => intro v pos h; cases h
  | succ n ih =>
    intro v pos h
    rw [loop] at h
    split at h
    · cases h
    next e => exact ⟨v, pos, e⟩
    · cases h
    · exact ih _ _ h

/-- Reading a file of version 3 is always defined, and reading a file of version 5 is defined unless the file has a
number of more than ten bytes. -/
theorem reading_defined_partial (f : Bytes) (fuel : Nat) (h : read f fuel = some .undef) : version f = 5 ∧ LongNumber f := by
  unfold read at h
  split at h
  · obtain ⟨v, pos, e⟩ := loop_undef _ _ _ _ _ h
    exact absurd e (safe_step3 v f pos 0)
  · split at h
    next h5 =>
      obtain ⟨v, pos, e⟩ := loop_undef _ _ _ _ _ h
      exact ⟨h5, def_step5 v f pos 0 e⟩
    · cases h

/-- Such a number is enough. -/
theorem long_number_undefined (crc : Nat) (hc : crc < 2 ^ 32) (b : UInt8) (rest : Bytes) (hl : rest.length < 2 ^ 61) (fuel : Nat) :
    read (sig5 ++ (leN 4 crc ++ (List.replicate 10 0x80 ++ b :: rest))) (fuel + 1) = some .undef := by
  have hver := version_sig5 (leN 4 crc ++ (List.replicate 10 0x80 ++ b :: rest))
  rw [read, if_neg (by rw [hver]; decide), if_pos hver]
  generalize hf : sig5 ++ (leN 4 crc ++ (List.replicate 10 0x80 ++ b :: rest)) = f
  have hlen : f.length < 2 ^ 62 := by
    rw [← hf]
    simp [sig5, leN_length]
    omega
  have one : ∀ (c : UInt8) (pre post : Bytes) (t : Int), f = pre ++ ([c] ++ post) →
      uint 1 f pre.length t = .ok (c.toNat, pre.length + 1, t - 1) := by
    intro c pre post t e
    have := reads_uint 1 c.toNat t c.toNat_lt f pre post (by rw [e]; simp [leN]) hlen
    simpa [leN] using this
  have run : ∀ k i acc (pre : Bytes) t, f = pre ++ (List.replicate k 0x80 ++ b :: rest) →
      vintLoop k i acc f pre.length t = .undef := by
    intro k
    induction k with
    | zero =>
      intro i acc pre t e
      have := one b pre rest t (by rw [e]; rfl)
      show (uint 1 >>= _) f pre.length t = _
      rw [bind_of this]
      rfl
    | succ k ih =>
      intro i acc pre t e
      have h1 := one 0x80 pre (List.replicate k 0x80 ++ b :: rest) t (by rw [e, List.replicate_succ]; rfl)
      have h2 := ih (i + 1) ((acc + 128 % 128 * 2 ^ (7 * i)) % 2 ^ 64) (pre ++ [0x80]) (t - 1) (by
        rw [e, List.replicate_succ]; simp)
      show (uint 1 >>= _) f pre.length t = _
      rw [bind_of h1]
      rw [List.length_append] at h2
      exact h2
  have h4 := reads_uint 4 crc 0 hc f sig5 (List.replicate 10 0x80 ++ b :: rest) hf.symm hlen
  have hv := run 10 0 0 (sig5 ++ leN 4 crc) (0 - (4 : Nat)) (by rw [← hf]; simp)
  have hb : block5 f 8 0 = .undef := by
    show (uint 4 >>= _) f sig5.length 0 = _
    rw [bind_of h4]
    show Rd.bind (vintLoop 10 0 0) _ f (sig5.length + (leN 4 crc).length) _ = _
    rw [Rd.bind, ← List.length_append, hv]
  have hs : step5 {} f 8 0 = .undef := by
    show Rd.bind block5 _ f 8 0 = _
    rw [Rd.bind, hb]
  rw [loop, hs]

/- A block of nearly 4 GiB -/

/-- If the header and the data of a file are 4 GiB long in all, or the low 32 bits of the size of the data are this
near to 2^32, then the program goes on in the middle of the file instead of behind it. -/
theorem large_block_misread (e : Entry) (h : e.Fits) (hw : 2 ^ 32 ≤ e.headSize + e.data.length % 2 ^ 32) (v : Vol)
    (f pre post : Bytes) (hf : f = pre ++ (e.enc3 ++ post)) (hl : f.length < 2 ^ 62) :
    ∃ t, step3 v f pre.length 0 = .ok ((false, { v with files := v.files ++ [e.file] }), pre.length + e.enc3.length - 2 ^ 32, t) := by
  have hd := h.data
  have hh := h.head
  have hb := reads_block3 _ 116 _ _ _ 0 h.crc (by omega) h.flags h.head (Nat.mod_lt e.data.length (by decide : 0 < 2 ^ 32)) h.hasData
    f pre ((leN 4 (e.size % 2 ^ 32) ++ (e.host ++ (e.fileCrc ++ (leN 4 e.time ++ (e.method ++ (leN 2 e.stored.length ++
    (leN 4 e.attr ++ (e.high ++ e.stored)))))))) ++ (e.ext ++ e.data) ++ post) (by
      rw [hf]; unfold Entry.enc3; simp only [List.append_assoc]) hl
  have hfl := reads_file3 e h (((e.headSize + e.data.length % 2 ^ 32) % 2 ^ 32 : Nat) - 7 - 4) f
    (pre ++ (leN 2 e.crc ++ (leN 1 0x74 ++ (leN 2 e.flags ++ (leN 2 e.headSize ++ leN 4 (e.data.length % 2 ^ 32))))))
    ((e.ext ++ e.data) ++ post) (by rw [hf]; unfold Entry.enc3; simp only [List.append_assoc]) hl
  have ee : e.enc3.length = (leN 2 e.crc ++ (leN 1 0x74 ++ (leN 2 e.flags ++ (leN 2 e.headSize ++ leN 4 (e.data.length % 2 ^ 32))))).length +
      (leN 4 (e.size % 2 ^ 32) ++ (e.host ++ (e.fileCrc ++ (leN 4 e.time ++ (e.method ++ (leN 2 e.stored.length ++
      (leN 4 e.attr ++ (e.high ++ e.stored)))))))).length + (e.ext.length + e.data.length) := by
    unfold Entry.enc3
    simp only [List.length_append]
    omega
  have elen : f.length = pre.length + (e.enc3.length + post.length) := by rw [hf]; simp
  rw [List.length_append] at hfl
  generalize hA : (leN 2 e.crc ++ (leN 1 0x74 ++ (leN 2 e.flags ++ (leN 2 e.headSize ++ leN 4 (e.data.length % 2 ^ 32))))).length = A at *
  generalize hB : (leN 4 (e.size % 2 ^ 32) ++ (e.host ++ (e.fileCrc ++ (leN 4 e.time ++ (e.method ++ (leN 2 e.stored.length ++
    (leN 4 e.attr ++ (e.high ++ e.stored)))))))).length = B at *
  have ht : ((e.headSize + e.data.length % 2 ^ 32) % 2 ^ 32 : Nat) - 7 - 4 - 21 + e.more - (e.stored.length : Int) =
      (e.ext.length : Int) + e.data.length - 2 ^ 32 := by
    unfold Entry.headSize Entry.more at *
    cases hlg : e.large
    · rw [hlg] at hd hw hh
      simp only [Bool.false_eq_true, if_false] at hd hw hh ⊢
      omega
    · rw [hlg] at hd hw hh
      simp only [if_true] at hd hw hh ⊢
      omega
  have hbig : 2 ^ 32 ≤ e.enc3.length := by
    have hA' : A = 11 := by rw [← hA]; simp [leN_length]
    have hB' : B = 21 + (if e.large then 8 else 0) + e.stored.length := by
      rw [← hB]
      unfold Entry.high
      simp only [List.length_append, leN_length, h.host, h.fileCrc, h.method]
      cases e.large
      · simp only [Bool.false_eq_true, if_false, List.length_nil]; omega
      · simp only [if_true, List.length_append, leN_length]; omega
    unfold Entry.headSize at hw
    omega
  rw [ht] at hfl
  refine ⟨(e.ext.length : Int) + e.data.length - 2 ^ 32, ?_⟩
  show (block3 >>= _) f pre.length 0 = _
  rw [bind_of hb]
  rw [if_neg (show ¬ (116 : Nat) = 0 by decide), if_neg (show ¬ (116 : Nat) = 115 by decide), if_pos rfl]
  rw [bind_of hfl]
  have hs : seek f (pre.length + A + B) ((e.ext.length : Int) + e.data.length - 2 ^ 32) =
      .ok ((), pre.length + e.enc3.length - 2 ^ 32, (e.ext.length : Int) + e.data.length - 2 ^ 32) := by
    unfold seek
    rw [asInt64_small _ (by omega) (by omega)]
    dsimp only
    rw [if_neg (by omega)]
    have : (((pre.length + A + B : Nat) : Int) + ((e.ext.length : Int) + e.data.length - 2 ^ 32)).toNat = pre.length + e.enc3.length - 2 ^ 32 := by
      omega
    rw [this]
  rw [bind_of hs]
  rfl

/- Cases -/

/-- The second volume of an archive of version 3 with the end of one file and the begin of another, and a comment. -/
def volume3 : Archive where
  mainFlags := 0x0011
  items := [.file { name := [97, 46, 116], time := 1000, attr := 32, size := 5000000000, data := [1, 2, 3], flags := 0x8101, uni := some [1, 2] },
    .other ⟨0x75, 0x0000, 7, [1, 2, 3], []⟩,
    .file { name := [98], time := 2000, attr := 32, size := 70, data := [4, 5], flags := 0x8002, ext := [9] }]
  endFlags := 0x4009
  number := 1

theorem volume3_ok : volume3.Ok where
  mainFlags := by decide
  noAdd := by decide
  plain := by decide
  mainCrc := by decide
  mainRest := by decide
  items := by
    intro i hi
    simp only [volume3, List.mem_cons, List.not_mem_nil, or_false] at hi
    rcases hi with rfl | rfl | rfl
    · exact ⟨⟨by decide, by decide, by decide, by decide, by decide, by decide, by decide, by decide, by decide,
        by decide, by decide, by decide, by decide⟩, by decide⟩
    · exact ⟨by decide, by decide, by decide, by decide, by decide⟩
    · exact ⟨⟨by decide, by decide, by decide, by decide, by decide, by decide, by decide, by decide, by decide,
        by decide, by decide, by decide, by decide⟩, by decide⟩
  endFlags := by decide
  noAddE := by decide
  endCrc := by decide
  dataCrc := by decide
  number := by decide
  endSize := by decide
  zeros := fun _ => ⟨[], rfl⟩

example : read (volume3.enc3 ++ [1, 2, 3]) 6 = some (.ok
    { volumeNo := 1, newNaming := true, multi := true, hasNext := true, files := [⟨[97, 46, 116], 1000, 32, 5000000000, true, false⟩, ⟨[98], 2000, 32, 70, false, true⟩] }) :=
  volume3_read_as_written volume3 volume3_ok [1, 2, 3] (by decide +kernel)

example : read volume3.body3 6 = some .bad := volume3_without_end_refused volume3 volume3_ok (by decide +kernel)

def entry5 : Entry5 where
  name := [97, 46, 116]
  size := 5000000000
  attr := 32
  time := 1000
  fileFlags := 6
  flags := 0x0b
  data := [1, 2, 3]
  extras := [.other 1 [7, 7], .windows 2 116444736010000000 [], .other 4 []]

/-- The third volume of an archive of version 5. -/
def volume5 : Archive5 where
  arcFlags := 3
  number := 2
  items := [.file entry5, .other ⟨2, 0, [1], [], [5, 5]⟩]
  endFlags := 1

theorem volume5_ok : volume5.Ok where
  arcFlags := by decide
  number := by decide
  items := by
    intro i hi
    simp only [volume5, List.mem_cons, List.not_mem_nil, or_false] at hi
    rcases hi with rfl | rfl
    · exact ⟨by decide, by decide, by decide, by decide, by decide, by decide, by decide, by decide, by decide,
        by decide, by decide, by decide, by
          intro x hx
          simp only [entry5, List.mem_cons, List.not_mem_nil, or_false] at hx
          rcases hx with rfl | rfl | rfl
          · exact ⟨by decide, by decide, by decide⟩
          · exact ⟨by decide, by decide, by decide, by decide⟩
          · exact ⟨by decide, by decide, by decide⟩, by decide +kernel⟩
    · exact ⟨by decide, by decide, by decide, by decide⟩
  endFlags := by decide
  mainBlock := by decide
  mainCrc := by decide
  mainData := by decide
  mainHead := by decide
  endBlock := by decide
  endCrc := by decide
  endHead := by decide

example : read volume5.enc 4 = some (.ok
    { volumeNo := 2, newNaming := true, multi := true, hasNext := true, files := [⟨[97, 46, 116], 1, 32, 5000000000, true, false⟩] }) := by
  have := volume5_read_as_written volume5 volume5_ok [] (by decide +kernel)
  rw [List.append_nil] at this
  exact this

/-- A file whose header and data are 2^32 + 1 bytes long. -/
def bigEntry : Entry := { name := [97], time := 0, attr := 0, size := 5, data := List.replicate (2 ^ 32 - 32) 0, flags := 0x8000 }

theorem bigEntry_fits : bigEntry.Fits where
  nozero := by decide
  flags := by decide
  hasData := by decide
  crc := by decide
  host := by decide
  fileCrc := by decide
  method := by decide
  time := by decide
  attr := by decide
  size := by decide
  data := by
    show (List.replicate (2 ^ 32 - 32) (0 : UInt8)).length < 2 ^ 32
    rw [List.length_replicate]
    decide
  head := by decide
  name := by decide

/-- This file meets the conditions of `large_block_misread`. -/
example : bigEntry.Fits ∧ 2 ^ 32 ≤ bigEntry.headSize + bigEntry.data.length % 2 ^ 32 := by
  have h1 : bigEntry.headSize = 33 := by decide
  have h2 : bigEntry.data.length = 2 ^ 32 - 32 := List.length_replicate
  exact ⟨bigEntry_fits, by omega⟩

/-- A file for which the reading does not end, as in `reading_ends_partial`. -/
example : ∃ f : Bytes, read f (f.length + 1) = none :=
  ⟨sig3 ++ ([1, 2, 0x75, 0, 0, 0, 0] ++ []), endless_version_3 1 2 [] (by decide) _⟩

end Verif.Rar
