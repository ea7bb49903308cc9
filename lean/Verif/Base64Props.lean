import Verif.Base64
/-
C41: base64 decoding inverts the encoding of RFC 4648.
-/
namespace Verif.Base64
open CStr

/-! ### Specification: RFC 4648, section 4 -/

/-- The alphabet (table 1 of the RFC). -/
def alphabet : Bytes := lit "ABCDEFGHIJKLMNOPQRSTUVWXYZabcdefghijklmnopqrstuvwxyz0123456789+/"

/-- The character for a 6-bit group. -/
def sym (n : Nat) : UInt8 := alphabet.getD n 0

/-- Three bytes become four characters; the last group may be shorter and is padded with `=`. -/
def encode : Bytes → Bytes
  | [] => []
  | [a] => [sym (a.toNat / 4), sym (a.toNat % 4 * 16), 61, 61]
  | [a, b] => [sym (a.toNat / 4), sym (a.toNat % 4 * 16 + b.toNat / 16), sym (b.toNat % 16 * 4), 61]
  | a :: b :: c :: r =>
    sym (a.toNat / 4) :: sym (a.toNat % 4 * 16 + b.toNat / 16) ::
    sym (b.toNat % 16 * 4 + c.toNat / 64) :: sym (c.toNat % 64) :: encode r

/-- A test vector of the RFC. -/
example : encode (lit "fooba") = lit "Zm9vYmE=" := by decide

/-- The text with everything removed that is neither in the alphabet nor the padding character. -/
def significant (s : Bytes) : Bytes := s.filter (fun c => alphabet.contains c || c == 61)

/-! ### Proofs -/

theorem sym_facts : ∀ n : Fin 64, counts (sym n.val) = true ∧ sym n.val ≠ 61 ∧
    dealphabet[(sym n.val).toNat]? = some n.val := by decide +kernel

theorem value_sym {n : Nat} (h : n < 64) : value (sym n) = some (BitVec.ofNat 32 n) := by
  have := (sym_facts ⟨n, h⟩).2.2
  unfold value; rw [this]; rfl

theorem counts_iff : ∀ k : Fin 256, counts (UInt8.ofNat k.val) =
    (alphabet.contains (UInt8.ofNat k.val) || UInt8.ofNat k.val == 61) := by decide +kernel

theorem counts_eq (c : UInt8) : counts c = (alphabet.contains c || c == 61) := by
  have := counts_iff ⟨c.toNat, UInt8.toNat_lt c⟩
  simpa using this

theorem push6_nat (b : BitVec 32) (m x : Nat) (hb : b.toNat = m * 64) (hx : x < 64)
    (hm : (m * 64 + x) * 64 < 2 ^ 32) : (push6 b (BitVec.ofNat 32 x)).toNat = (m * 64 + x) * 64 := by
  unfold push6
  rw [BitVec.toNat_shiftLeft, BitVec.toNat_or, hb, BitVec.toNat_ofNat]
  have h1 : x % 2 ^ 32 = x := by omega
  rw [h1]
  have h2 : m * 64 ||| x = m * 64 + x := by
    have := Nat.shiftLeft_add_eq_or_of_lt (b := x) (i := 6) (by omega) m
    rw [Nat.shiftLeft_eq] at this
    exact this.symm
  rw [h2, Nat.shiftLeft_eq]
  omega

theorem byteAt_nat (b : BitVec 32) (n : Nat) (v : UInt8) (h : b.toNat / 2 ^ n % 256 = v.toNat) :
    byteAt b n = v := by
  unfold byteAt
  apply UInt8.toNat.inj
  rw [BitVec.toNat_ushiftRight, Nat.shiftRight_eq_div_pow, UInt8.toNat_ofNat']
  exact h

theorem shl_nat (b : BitVec 32) (k : Nat) (h : b.toNat * 2 ^ k < 2 ^ 32) :
    (b <<< k).toNat = b.toNat * 2 ^ k := by
  rw [BitVec.toNat_shiftLeft, Nat.shiftLeft_eq, Nat.mod_eq_of_lt h]

theorem quartet3 (a b c : UInt8) :
    quartet (sym (a.toNat / 4)) (sym (a.toNat % 4 * 16 + b.toNat / 16))
      (sym (b.toNat % 16 * 4 + c.toNat / 64)) (sym (c.toNat % 64)) = some [a, b, c] := by
  have ha := UInt8.toNat_lt a; have hb := UInt8.toNat_lt b; have hc := UInt8.toNat_lt c
  have l0 : a.toNat / 4 < 64 := by omega
  have l1 : a.toNat % 4 * 16 + b.toNat / 16 < 64 := by omega
  have l2 : b.toNat % 16 * 4 + c.toNat / 64 < 64 := by omega
  have l3 : c.toNat % 64 < 64 := by omega
  unfold quartet
  rw [if_neg (sym_facts ⟨_, l3⟩).2.1, value_sym l0, value_sym l1, value_sym l2, value_sym l3]
  simp only [Option.bind_eq_bind, Option.bind_some, Option.pure_def]
  have e0 := push6_nat 0 0 _ (by simp) l0 (by omega)
  have e1 := push6_nat _ (a.toNat / 4) _ (by rw [e0]; omega) l1 (by omega)
  have e2 := push6_nat _ (a.toNat * 16 + b.toNat / 16) _ (by rw [e1]; omega) l2 (by omega)
  have e3 := push6_nat _ (a.toNat * 1024 + b.toNat * 4 + c.toNat / 64) _ (by rw [e2]; omega) l3 (by omega)
  have e4 := shl_nat _ 2 (by rw [e3]; omega)
  rw [e3] at e4
  congr 2
  · exact byteAt_nat _ _ _ (by rw [e4]; omega)
  · congr 1
    · exact byteAt_nat _ _ _ (by rw [e4]; omega)
    · congr 1
      exact byteAt_nat _ _ _ (by rw [e4]; omega)

theorem quartet2 (a b : UInt8) :
    quartet (sym (a.toNat / 4)) (sym (a.toNat % 4 * 16 + b.toNat / 16))
      (sym (b.toNat % 16 * 4)) 61 = some [a, b] := by
  have ha := UInt8.toNat_lt a; have hb := UInt8.toNat_lt b
  have l0 : a.toNat / 4 < 64 := by omega
  have l1 : a.toNat % 4 * 16 + b.toNat / 16 < 64 := by omega
  have l2 : b.toNat % 16 * 4 < 64 := by omega
  unfold quartet
  rw [if_pos rfl, if_neg (sym_facts ⟨_, l2⟩).2.1, value_sym l0, value_sym l1, value_sym l2]
  simp only [Option.bind_eq_bind, Option.bind_some, Option.pure_def]
  have e0 := push6_nat 0 0 _ (by simp) l0 (by omega)
  have e1 := push6_nat _ (a.toNat / 4) _ (by rw [e0]; omega) l1 (by omega)
  have e2 := push6_nat _ (a.toNat * 16 + b.toNat / 16) _ (by rw [e1]; omega) l2 (by omega)
  have e4 := shl_nat _ 8 (by rw [e2]; omega)
  rw [e2] at e4
  congr 2
  · exact byteAt_nat _ _ _ (by rw [e4]; omega)
  · congr 1
    exact byteAt_nat _ _ _ (by rw [e4]; omega)

theorem quartet1 (a : UInt8) :
    quartet (sym (a.toNat / 4)) (sym (a.toNat % 4 * 16)) 61 61 = some [a] := by
  have ha := UInt8.toNat_lt a
  have l0 : a.toNat / 4 < 64 := by omega
  have l1 : a.toNat % 4 * 16 < 64 := by omega
  unfold quartet
  rw [if_pos rfl, if_pos rfl, value_sym l0, value_sym l1]
  simp only [Option.bind_eq_bind, Option.bind_some, Option.pure_def]
  have e0 := push6_nat 0 0 _ (by simp) l0 (by omega)
  have e1 := push6_nat _ (a.toNat / 4) _ (by rw [e0]; omega) l1 (by omega)
  have e4 := shl_nat _ 14 (by rw [e1]; omega)
  rw [e1] at e4
  rw [byteAt_nat _ 24 a (by rw [e4]; omega)]

/-- Ignored characters do not matter. -/
theorem loop_filter : ∀ (s q : Bytes), q.length < 4 → loop s q = loop (s.filter counts) q := by
  intro s
  induction s with
  | nil => intro q _; rfl
  | cons c s ih =>
    intro q hq
    by_cases hc : counts c = true
    · rw [List.filter_cons, if_pos hc]
      unfold loop
      rw [if_pos hc]
      split
      · rw [ih [] (by simp)]
      · rename_i hne
        apply ih
        match q, hne with
        | [], _ => simp
        | [_], _ => simp
        | [_, _], _ => simp
        | [x, y, z], hne => exact absurd rfl (hne c x y z)
        | _ :: _ :: _ :: _ :: _, _ => simp at hq; omega
    · rw [List.filter_cons, if_neg hc]
      rw [loop, if_neg hc]
      split
      · simp at hq
      · exact ih q hq

theorem loop_step (c : UInt8) (s q : Bytes) (hc : counts c = true) (hq : q.length < 3) :
    loop (c :: s) q = loop s (c :: q) := by
  rw [loop, if_pos hc]
  split
  · rename_i h; simp at h; rw [h.2] at hq; simp at hq
  · rfl

theorem loop_four (c0 c1 c2 c3 : UInt8) (s out : Bytes) (h0 : counts c0 = true) (h1 : counts c1 = true)
    (h2 : counts c2 = true) (h3 : counts c3 = true) (h : quartet c0 c1 c2 c3 = some out) :
    loop (c0 :: c1 :: c2 :: c3 :: s) [] = (loop s []).map (out ++ ·) := by
  rw [loop_step _ _ _ h0 (by simp), loop_step _ _ _ h1 (by simp), loop_step _ _ _ h2 (by simp)]
  rw [loop, if_pos h3]
  simp only [h, Option.bind_eq_bind, Option.bind_some, Option.pure_def]
  cases loop s [] <;> rfl

theorem counts_sym {n : Nat} (h : n < 64) : counts (sym n) = true := (sym_facts ⟨n, h⟩).1

theorem loop_encode (d : Bytes) : loop (encode d) [] = some d := by
  fun_induction encode d with
  | case1 => rfl
  | case2 a =>
    have ha := UInt8.toNat_lt a
    rw [loop_four _ _ _ _ _ _ (counts_sym (by omega)) (counts_sym (by omega)) (by decide) (by decide) (quartet1 a)]
    rfl
  | case3 a b =>
    have ha := UInt8.toNat_lt a; have hb := UInt8.toNat_lt b
    rw [loop_four _ _ _ _ _ _ (counts_sym (by omega)) (counts_sym (by omega)) (counts_sym (by omega)) (by decide)
      (quartet2 a b)]
    rfl
  | case4 a b c r ih =>
    have ha := UInt8.toNat_lt a; have hb := UInt8.toNat_lt b; have hc := UInt8.toNat_lt c
    rw [loop_four _ _ _ _ _ _ (counts_sym (by omega)) (counts_sym (by omega)) (counts_sym (by omega))
      (counts_sym (by omega)) (quartet3 a b c), ih]
    rfl

/-- **C41.** A text whose significant characters are the RFC 4648 encoding of `data`, with anything else
in between, is decoded to `data`. -/
theorem decode_inverts_encode (data s : Bytes) (h : significant s = encode data) : decode s = some data := by
  unfold decode
  rw [loop_filter s [] (by simp)]
  have : s.filter counts = significant s := by
    unfold significant
    congr 1
    funext c
    exact counts_eq c
  rw [this, h, loop_encode]

/-- A line-broken text meets the hypothesis. -/
example : significant (lit "Zm9v\r\nYm E=") = encode (lit "fooba") := by decide

theorem value_counts (c : UInt8) (h : counts c = true) : ∃ v, value c = some v := by
  have : c.toNat < 128 := by
    simp only [counts, Bool.or_eq_true, Bool.and_eq_true, decide_eq_true_eq, beq_iff_eq] at h
    rcases h with ((((h | h) | h) | h) | h) | h
    · omega
    · omega
    · omega
    · subst h; decide
    · subst h; decide
    · subst h; decide
  unfold value
  have hl : dealphabet.length = 128 := by decide +kernel
  rw [List.getElem?_eq_getElem (by omega)]
  exact ⟨_, rfl⟩

theorem quartet_total (c0 c1 c2 c3 : UInt8) (h0 : counts c0 = true) (h1 : counts c1 = true)
    (h2 : counts c2 = true) (h3 : counts c3 = true) :
    ∃ out, quartet c0 c1 c2 c3 = some out ∧ out.length ≤ 3 := by
  obtain ⟨v0, e0⟩ := value_counts c0 h0
  obtain ⟨v1, e1⟩ := value_counts c1 h1
  obtain ⟨v2, e2⟩ := value_counts c2 h2
  obtain ⟨v3, e3⟩ := value_counts c3 h3
  unfold quartet
  rw [e0, e1, e2, e3]
  by_cases h : c3 = 61
  · rw [if_pos h]
    by_cases h' : c2 = 61
    · rw [if_pos h']; exact ⟨_, rfl, by simp⟩
    · rw [if_neg h']; exact ⟨_, rfl, by simp⟩
  · rw [if_neg h]; exact ⟨_, rfl, by simp⟩

theorem loop_total : ∀ (s q : Bytes), q.length < 4 → (∀ c ∈ q, counts c = true) →
    ∃ out, loop s q = some out ∧ 4 * out.length ≤ 3 * (s.length + q.length) := by
  intro s
  induction s with
  | nil => intro q _ _; exact ⟨[], rfl, by simp⟩
  | cons c s ih =>
    intro q hq hall
    by_cases hc : counts c = true
    · rw [loop, if_pos hc]
      split
      · rename_i c3 c2 c1 c0 heq
        simp only [List.cons.injEq] at heq
        obtain ⟨r1, r2⟩ := heq
        subst r1 r2
        obtain ⟨o1, p1, p2⟩ := quartet_total c0 c1 c2 c (hall _ (by simp)) (hall _ (by simp)) (hall _ (by simp)) hc
        obtain ⟨o2, p3, p4⟩ := ih [] (by simp) (by simp)
        rw [p1, p3]
        refine ⟨o1 ++ o2, rfl, ?_⟩
        simp only [List.length_append, List.length_cons, List.length_nil] at *
        omega
      · rename_i hne
        obtain ⟨o, p1, p2⟩ := ih (c :: q) (by
          match q, hne with
          | [], _ => simp
          | [_], _ => simp
          | [_, _], _ => simp
          | [x, y, z], hne => exact absurd rfl (hne c x y z)
          | _ :: _ :: _ :: _ :: _, _ => simp at hq; omega) (by
            intro d hd
            rcases List.mem_cons.mp hd with e | e
            · rw [e]; exact hc
            · exact hall d e)
        refine ⟨o, p1, ?_⟩
        simp only [List.length_cons] at *
        omega
    · rw [loop, if_neg hc]
      split
      · simp at hq
      · obtain ⟨o, p1, p2⟩ := ih q hq hall
        refine ⟨o, p1, ?_⟩
        simp only [List.length_cons]
        omega

/-- **C41.** Whatever the text, the decoder stays inside of its table, and the decoded bytes need at most
three quarters of the space of the text - so decoding in place and into a buffer of the length of the
text never overflows. -/
theorem decode_safe (s : Bytes) : ∃ out, decode s = some out ∧ 4 * out.length ≤ 3 * s.length := by
  obtain ⟨o, h1, h2⟩ := loop_total s [] (by simp) (by simp)
  exact ⟨o, h1, by simpa using h2⟩

end Verif.Base64
