/-
C string helpers used by several models. A C string is modelled by the list of its bytes; where a
function receives a pointer into a larger buffer, the list is the rest of the buffer and the string
ends at the first NUL (`cstr`). Standard library functions (strstr, strncmp, atoll, strtoul, printf's
%i and %08x) are modelled after the C standard; they are not code of /repo.
-/
namespace Verif.CStr

abbrev Bytes := List UInt8

/-- An ASCII literal. -/
def lit (s : String) : Bytes := s.toList.map (fun c => c.toNat.toUInt8)

/-- The C string starting at a pointer: everything before the first NUL. -/
def cstr : Bytes → Bytes
  | [] => []
  | b :: l => if b = 0 then [] else b :: cstr l

/-- `strncmp(s, p, strlen(p)) == 0`. -/
def startsWith (p s : Bytes) : Bool := p.isPrefixOf s

/-- `strstr`: the text after the first occurrence of `p` in `s` (the code always continues at
`pb + strlen(p)`). -/
def after (p : Bytes) : Bytes → Option Bytes
  | [] => if p = [] then some [] else none
  | b :: s => if startsWith p (b :: s) then some ((b :: s).drop p.length) else after p s

/-- isspace in the C locale. -/
def isSpace (b : UInt8) : Bool := b == 32 || (9 ≤ b.toNat && b.toNat ≤ 13)

def isDigit (b : UInt8) : Bool := 48 ≤ b.toNat && b.toNat ≤ 57

/-- Value of the longest prefix of decimal digits. -/
def digits (acc : Nat) : Bytes → Nat
  | [] => acc
  | b :: l => if isDigit b then digits (acc * 10 + (b.toNat - 48)) l else acc

/-- Limit to the range of `long long` (glibc's strtoll saturates). -/
def clamp64 (i : Int) : Int := max (-(2 ^ 63)) (min (2 ^ 63 - 1) i)

/-- `atoll`. -/
def atoll (s : Bytes) : Int :=
  match s.dropWhile isSpace with
  | [] => 0
  | b :: l =>
    if b = 45 then clamp64 (-(digits 0 l : Int))
    else if b = 43 then clamp64 (digits 0 l : Int)
    else clamp64 (digits 0 (b :: l) : Int)

def hexVal (b : UInt8) : Option Nat :=
  let n := b.toNat
  if 48 ≤ n ∧ n ≤ 57 then some (n - 48)
  else if 97 ≤ n ∧ n ≤ 102 then some (n - 87)
  else if 65 ≤ n ∧ n ≤ 70 then some (n - 55)
  else none

/-- Value of the longest prefix of hexadecimal digits. -/
def hexDigits (acc : Nat) : Bytes → Nat
  | [] => acc
  | b :: l => match hexVal b with
    | some d => hexDigits (acc * 16 + d) l
    | none => acc

/-- Skips an `0x` prefix when followed by a hex digit. -/
def skip0x : Bytes → Bytes
  | 48 :: x :: d :: l => if (x = 120 ∨ x = 88) ∧ (hexVal d).isSome then d :: l else 48 :: x :: d :: l
  | l => l

/-- `strtoul(s, nullptr, 16)` stored in a `uint32`. -/
def strtoul16 (s : Bytes) : BitVec 32 :=
  let sat (n : Nat) : Nat := min n (2 ^ 64 - 1)
  match s.dropWhile isSpace with
  | 45 :: l => BitVec.ofNat 32 (2 ^ 64 - sat (hexDigits 0 (skip0x l)))
  | 43 :: l => BitVec.ofNat 32 (sat (hexDigits 0 (skip0x l)))
  | l => BitVec.ofNat 32 (sat (hexDigits 0 (skip0x l)))

/-- Decimal digits of a number, most significant first (`fuel` > number of digits). -/
def decAux : Nat → Nat → Bytes
  | 0, _ => []
  | f + 1, n => (if n < 10 then [] else decAux f (n / 10)) ++ [UInt8.ofNat (n % 10 + 48)]

/-- `%u`, `%lu`, and `%i` of a non-negative number. -/
def dec (n : Nat) : Bytes := decAux (n + 1) n

/-- `%i`, `%lli`. -/
def decInt (i : Int) : Bytes := if i < 0 then 45 :: dec i.natAbs else dec i.natAbs

def hexChar (n : Nat) : UInt8 := UInt8.ofNat (if n < 10 then n + 48 else n + 87)

/-- `%08x` of a 32 bit number. -/
def hex8 (v : BitVec 32) : Bytes :=
  [7, 6, 5, 4, 3, 2, 1, 0].map (fun k => hexChar (v.toNat / 16 ^ k % 16))

/-! ### Lemmas -/

theorem cstr_of_no_nul {l : Bytes} (h : ∀ b ∈ l, b ≠ 0) : cstr l = l := by
  induction l with
  | nil => rfl
  | cons b l ih =>
    have hb : b ≠ 0 := h b (by simp)
    simp [cstr, hb, ih (fun c hc => h c (by simp [hc]))]

theorem startsWith_append (p s : Bytes) : startsWith p (p ++ s) = true := by
  simp [startsWith, List.isPrefixOf_iff_prefix]

theorem after_self (p s : Bytes) : after p (p ++ s) = some s := by
  cases p with
  | nil => cases s <;> simp [after, startsWith]
  | cons a p =>
    have := startsWith_append (a :: p) s
    simp only [List.cons_append] at *
    simp [after, this]

/-- Stepping over a byte where the pattern does not start. -/
theorem after_step (p : Bytes) (b : UInt8) (s : Bytes) (h : startsWith p (b :: s) = false) :
    after p (b :: s) = after p s := by simp [after, h]

/-- Skipping a text `t` in which the first byte of the pattern does not occur. -/
theorem after_skip (a : UInt8) (p t s : Bytes) (h : a ∉ t) : after (a :: p) (t ++ s) = after (a :: p) s := by
  induction t with
  | nil => rfl
  | cons b t ih =>
    have hb : (a == b) = false := by
      simp only [List.mem_cons, not_or] at h
      simp [h.1]
    rw [List.cons_append, after_step]
    · exact ih (by simp at h; exact h.2)
    · simp only [startsWith, List.isPrefixOf, hb, Bool.false_and]

/-- Stepping over the first byte of the pattern when the second does not match. -/
theorem after_skip2 (a c d : UInt8) (p s : Bytes) (h : c ≠ d) :
    after (a :: c :: p) (a :: d :: s) = after (a :: c :: p) (d :: s) := by
  rw [after_step]
  have : (c == d) = false := by simp [h]
  simp only [startsWith, List.isPrefixOf, this, Bool.false_and, Bool.and_false]

theorem isDigit_toNat {d : Nat} (h : d < 10) : isDigit (UInt8.ofNat (d + 48)) = true := by
  have : ∀ d : Fin 10, isDigit (UInt8.ofNat (d.val + 48)) = true := by decide
  exact this ⟨d, h⟩

theorem toNat_digit {d : Nat} (h : d < 10) : (UInt8.ofNat (d + 48)).toNat - 48 = d := by
  have : ∀ d : Fin 10, (UInt8.ofNat (d.val + 48)).toNat - 48 = d.val := by decide
  exact this ⟨d, h⟩

theorem digits_decAux (f : Nat) : ∀ (n : Nat) (rest : Bytes), n < f →
    ∃ k, ∀ acc, digits acc (decAux f n ++ rest) = digits (acc * 10 ^ k + n) rest := by
  induction f with
  | zero => intro n rest h; omega
  | succ f ih =>
    intro n rest h
    unfold decAux
    by_cases hn : n < 10
    · refine ⟨1, fun acc => ?_⟩
      simp only [hn, if_true, List.nil_append, List.cons_append, digits]
      rw [Nat.mod_eq_of_lt hn, isDigit_toNat hn, if_pos rfl, toNat_digit hn]
    · obtain ⟨k, hk⟩ := ih (n / 10) ([UInt8.ofNat (n % 10 + 48)] ++ rest) (by omega)
      refine ⟨k + 1, fun acc => ?_⟩
      simp only [hn, if_false, List.append_assoc]
      rw [hk]
      simp only [List.cons_append, List.nil_append, digits]
      have hm : n % 10 < 10 := Nat.mod_lt _ (by omega)
      rw [isDigit_toNat hm, if_pos rfl, toNat_digit hm]
      congr 1
      rw [Nat.add_mul, Nat.mul_assoc, ← Nat.pow_succ, Nat.succ_eq_add_one]
      omega

theorem digits_dec (n : Nat) (rest : Bytes) (h : ∀ b ∈ rest.head?, isDigit b = false) :
    digits 0 (dec n ++ rest) = n := by
  obtain ⟨k, hk⟩ := digits_decAux (n + 1) n rest (by omega)
  unfold dec
  rw [hk]
  cases rest with
  | nil => simp [digits]
  | cons b l => simp [digits, h b (by simp)]

theorem decAux_ne_nil (f n : Nat) (h : 0 < f) : ∃ d l, decAux f n = d :: l ∧ isDigit d = true := by
  induction f generalizing n with
  | zero => omega
  | succ f ih =>
    unfold decAux
    by_cases hn : n < 10
    · exact ⟨UInt8.ofNat (n % 10 + 48), [], by simp only [hn, if_true, List.nil_append],
        isDigit_toNat (Nat.mod_lt _ (by omega))⟩
    · simp only [hn, if_false]
      by_cases hf : 0 < f
      · obtain ⟨d, l, h1, h2⟩ := ih (n / 10) hf
        exact ⟨d, l ++ [_], by rw [h1]; rfl, h2⟩
      · have : f = 0 := by omega
        subst this
        exact ⟨UInt8.ofNat (n % 10 + 48), [], by simp only [decAux, List.nil_append],
          isDigit_toNat (Nat.mod_lt _ (by omega))⟩

theorem isDigit_decAux (f : Nat) : ∀ n b, b ∈ decAux f n → isDigit b = true := by
  induction f with
  | zero => intro n b h; simp [decAux] at h
  | succ f ih =>
    intro n b h
    unfold decAux at h
    rcases List.mem_append.1 h with h | h
    · split at h
      · simp at h
      · exact ih _ _ h
    · simp only [List.mem_cons, List.not_mem_nil, or_false] at h
      rw [h]; exact isDigit_toNat (Nat.mod_lt _ (by omega))

theorem isDigit_dec (n : Nat) : ∀ b ∈ dec n, isDigit b = true := fun b h => isDigit_decAux _ _ b h

theorem atoll_dec (n : Nat) (rest : Bytes) (hn : n < 2 ^ 63) (h : ∀ b ∈ rest.head?, isDigit b = false) :
    atoll (dec n ++ rest) = n := by
  obtain ⟨d, l, h1, h2⟩ := decAux_ne_nil (n + 1) n (by omega)
  have hd := digits_dec n rest h
  have hn63 : (n : Int) < 2 ^ 63 := by exact_mod_cast hn
  unfold dec at *
  rw [h1] at *
  have hsp : isSpace d = false := by
    simp only [isDigit, Bool.and_eq_true, decide_eq_true_eq] at h2
    simp only [isSpace, Bool.or_eq_false_iff, beq_eq_false_iff_ne, Bool.and_eq_false_iff]
    refine ⟨?_, by right; simp; omega⟩
    intro h; subst h; simp at h2
  have h45 : d ≠ 45 := by intro h; subst h; revert h2; decide
  have h43 : d ≠ 43 := by intro h; subst h; revert h2; decide
  unfold atoll
  rw [List.cons_append, List.dropWhile_cons, if_neg (by simp [hsp])]
  simp only [h45, h43, if_false]
  rw [List.cons_append] at hd
  rw [hd]
  unfold clamp64
  omega

theorem hexVal_hexChar {n : Nat} (h : n < 16) : hexVal (hexChar n) = some n := by
  have : ∀ n : Fin 16, hexVal (hexChar n.val) = some n.val := by decide
  exact this ⟨n, h⟩

theorem hexDigits_hex8 (v : BitVec 32) (rest : Bytes) (h : ∀ b ∈ rest.head?, hexVal b = none) :
    hexDigits 0 (hex8 v ++ rest) = v.toNat := by
  have hv := v.isLt
  have hm : ∀ k, v.toNat / 16 ^ k % 16 < 16 := fun k => Nat.mod_lt _ (by omega)
  simp only [hex8, List.map_cons, List.map_nil, List.cons_append, List.nil_append, hexDigits,
    hexVal_hexChar (hm _)]
  have hr : ∀ a, hexDigits a rest = a := by
    intro a
    cases rest with
    | nil => rfl
    | cons b l => simp [hexDigits, h b (by simp)]
  rw [hr]
  omega

theorem isSpace_hexChar {n : Nat} (h : n < 16) : isSpace (hexChar n) = false := by
  have : ∀ n : Fin 16, isSpace (hexChar n.val) = false := by decide
  exact this ⟨n, h⟩

theorem hexChar_ne {n : Nat} (h : n < 16) : hexChar n ≠ 45 ∧ hexChar n ≠ 43 ∧ hexChar n ≠ 120 ∧ hexChar n ≠ 88 := by
  have : ∀ n : Fin 16, hexChar n.val ≠ 45 ∧ hexChar n.val ≠ 43 ∧ hexChar n.val ≠ 120 ∧ hexChar n.val ≠ 88 := by decide
  exact this ⟨n, h⟩

theorem strtoul16_hex8 (v : BitVec 32) (rest : Bytes) (h : ∀ b ∈ rest.head?, hexVal b = none) :
    strtoul16 (hex8 v ++ rest) = v := by
  have hd := hexDigits_hex8 v rest h
  have hm : ∀ k, v.toNat / 16 ^ k % 16 < 16 := fun k => Nat.mod_lt _ (by omega)
  have hv := v.isLt
  unfold strtoul16
  have hdw : (hex8 v ++ rest).dropWhile isSpace = hex8 v ++ rest := by
    simp only [hex8, List.map_cons, List.cons_append]
    rw [List.dropWhile_cons, isSpace_hexChar (hm _)]; rfl
  have hsk : skip0x (hex8 v ++ rest) = hex8 v ++ rest := by
    simp only [hex8, List.map_cons, List.cons_append]
    have h7 := hexChar_ne (hm 6)
    unfold skip0x
    split
    · rename_i x d l heq
      simp only [List.cons.injEq] at heq
      obtain ⟨h1, h2, h3, h4⟩ := heq
      rw [if_neg]
      · rw [← h1, ← h2, ← h3, ← h4]
      · rw [← h2]; intro hh
        rcases hh.1 with h | h
        · exact h7.2.2.1 h
        · exact h7.2.2.2 h
    · rfl
  rw [hdw]
  have key : BitVec.ofNat 32 (min (hexDigits 0 (skip0x (hex8 v ++ rest))) (2 ^ 64 - 1)) = v := by
    rw [hsk, hd]
    apply BitVec.eq_of_toNat_eq
    simp only [BitVec.toNat_ofNat]
    omega
  split
  · rename_i l heq
    exfalso
    simp only [hex8, List.map_cons, List.cons_append, List.cons.injEq] at heq
    exact (hexChar_ne (hm 7)).1 heq.1
  · rename_i l heq
    exfalso
    simp only [hex8, List.map_cons, List.cons_append, List.cons.injEq] at heq
    exact (hexChar_ne (hm 7)).2.1 heq.1
  · exact key

end Verif.CStr
