import Verif.DecoderInv
/-! Lemmas about end-of-article detection in raw mode. -/
namespace Verif.Decoder
open CStr

/-- The end marker. -/
def term : Bytes := [13, 10, 46, 13, 10]

theorem after_isSome (p : Bytes) : ∀ s : Bytes, (after p s).isSome = true ↔ p <:+: s := by
  intro s
  induction s with
  | nil =>
    unfold after
    split
    · rename_i h
      subst h; simp
    · rename_i h
      constructor
      · intro h; simp at h
      · intro h'
        exact absurd (List.infix_nil.1 h') h
  | cons b s ih =>
    unfold after
    split
    · rename_i h
      have : p <+: b :: s := List.isPrefixOf_iff_prefix.1 h
      simp [this.isInfix]
    · rename_i h
      rw [ih, List.infix_cons_iff]
      constructor
      · exact Or.inr
      · rintro (h' | h')
        · exact absurd (List.isPrefixOf_iff_prefix.2 h') h
        · exact h'

theorem hasTerminator_iff (buf : Bytes) : hasTerminator buf = true ↔ term <:+: cstr buf :=
  after_isSome _ _

theorem infix_append {p a b : Bytes} (h : p <:+: a ++ b) :
    p <:+: a ∨ p <:+: b ∨ ∃ u v, p = u ++ v ∧ u ≠ [] ∧ v ≠ [] ∧ u <:+ a ∧ v <+: b := by
  obtain ⟨x, y, h⟩ := h
  have h' : (x ++ p) ++ y = a ++ b := h
  rcases List.append_eq_append_iff.1 h' with ⟨t, h1, h2⟩ | ⟨t, h1, h2⟩
  · left
    exact ⟨x, t, h1.symm⟩
  · rcases List.append_eq_append_iff.1 h1 with ⟨u, h3, h4⟩ | ⟨u, h3, h4⟩
    · -- a = x ++ u, p = u ++ t
      by_cases hu : u = []
      · right; left; subst hu
        simp only [List.nil_append] at h4; subst h4
        exact ⟨[], y, by simp [h2]⟩
      · by_cases ht : t = []
        · left; subst ht; simp only [List.append_nil] at h4; subst h4
          exact ⟨x, [], by simp [h3]⟩
        · right; right
          exact ⟨u, t, h4, hu, ht, ⟨x, h3.symm⟩, ⟨y, h2.symm⟩⟩
    · -- x = a ++ u, t = u ++ p
      right; left
      exact ⟨u, y, by rw [h2, h4]⟩

/-- The stream ends with the first `k` bytes of the marker, as the state says. -/
def Ends (k : Nat) (s : Bytes) : Prop := term.take k <:+ s

theorem rawState_spec (buf : Bytes) (st : Nat × Bool) :
    (processRaw st buf).1 ≤ 4 ∧ term.take (processRaw st buf).1 <:+ buf := by
  unfold processRaw
  simp only [endsWith]
  by_cases h4 : List.isSuffixOf (lit "\r\n.\r") buf = true
  · simp only [h4, if_true]; exact ⟨by decide, List.isSuffixOf_iff_suffix.1 h4⟩
  by_cases h3 : List.isSuffixOf (lit "\r\n.") buf = true
  · simp only [h4, h3, if_true]; exact ⟨by decide, List.isSuffixOf_iff_suffix.1 h3⟩
  by_cases h2 : List.isSuffixOf (lit "\r\n") buf = true
  · simp only [h4, h3, h2, if_true]; exact ⟨by decide, List.isSuffixOf_iff_suffix.1 h2⟩
  by_cases h1 : List.isSuffixOf (lit "\r") buf = true
  · simp only [h4, h3, h2, h1, if_true]; exact ⟨by decide, List.isSuffixOf_iff_suffix.1 h1⟩
  · simp only [h4, h3, h2, h1]; exact ⟨by decide, List.nil_suffix⟩

theorem processRaw_eof (st : Nat) (buf : Bytes) (h : st ≤ 4) : (processRaw (st, false) buf).2 = true ↔
    (0 < st ∧ term.drop st <+: buf) ∨ (5 ≤ buf.length ∧ hasTerminator buf = true) := by
  unfold processRaw
  simp only [Bool.or_eq_true, Bool.and_eq_true, decide_eq_true_eq]
  have : st = 0 ∨ st = 1 ∨ st = 2 ∨ st = 3 ∨ st = 4 := by omega
  rcases this with rfl | rfl | rfl | rfl | rfl
  · simp
  all_goals
    simp only [startsWith, List.isPrefixOf_iff_prefix, ge_iff_le]
    simp [term, lit]

/-- Soundness invariant. -/
theorem receiveRaw_sound (bufs : List Bytes) : ∀ (k : Nat) (s : Bytes), k ≤ 4 → Ends k s →
    (receiveRaw (k, false) bufs).2 = true → term <:+: s ++ bufs.flatten := by
  induction bufs with
  | nil => intro k s _ _ h; simp [receiveRaw] at h
  | cons b bs ih =>
    intro k s hk he h
    rw [receiveRaw] at h
    simp only [Bool.false_eq_true, if_false] at h
    have hspec := rawState_spec b (k, false)
    have hend : Ends (processRaw (k, false) b).1 (s ++ b) := hspec.2.trans (List.suffix_append _ _)
    cases hr : (processRaw (k, false) b).2 with
    | false =>
      have heq : processRaw (k, false) b = ((processRaw (k, false) b).1, false) := Prod.ext rfl hr
      rw [heq] at h
      have := ih _ (s ++ b) hspec.1 hend h
      rw [List.flatten_cons, ← List.append_assoc]; exact this
    | true =>
      have hc := (processRaw_eof k b hk).1 hr
      rw [List.flatten_cons, ← List.append_assoc]
      suffices h' : term <:+: s ++ b from h'.trans (List.prefix_append _ _).isInfix
      rcases hc with ⟨_, h2⟩ | ⟨_, h2⟩
      · obtain ⟨x, hx⟩ := he
        obtain ⟨y, hy⟩ := h2
        refine ⟨x, y, ?_⟩
        rw [← hx, ← hy]
        have := List.take_append_drop k term
        calc x ++ term ++ y = x ++ (term.take k ++ term.drop k) ++ y := by rw [this]
          _ = _ := by simp only [List.append_assoc]
      · exact ((hasTerminator_iff b).1 h2).trans ((cstr_prefix b).isInfix.trans (List.suffix_append _ _).isInfix)

theorem split_term {u v : Bytes} (h : term = u ++ v) (hu : u ≠ []) (hv : v ≠ []) :
    ∃ k, 1 ≤ k ∧ k ≤ 4 ∧ u = term.take k ∧ v = term.drop k := by
  refine ⟨u.length, ?_, ?_, by rw [h]; simp, by rw [h]; simp⟩
  · cases u; exact absurd rfl hu; simp
  · have := congrArg List.length h
    cases v with
    | nil => exact absurd rfl hv
    | cons => simp [term] at this; omega

theorem suffix_of_long {p s b : Bytes} (h : p <:+ s ++ b) (hl : p.length ≤ b.length) : p <:+ b :=
  List.suffix_of_suffix_length_le h (List.suffix_append _ _) hl

/-- The state is the longest matching prefix of the marker. -/
theorem rawState_max (buf : Bytes) (st : Nat × Bool) (k : Nat) (hk : 1 ≤ k) (hk4 : k ≤ 4) (h : term.take k <:+ buf) :
    k ≤ (processRaw st buf).1 := by
  have hcase : k = 1 ∨ k = 2 ∨ k = 3 ∨ k = 4 := by omega
  have key : ∀ p : Bytes, endsWith p buf = false → ¬ p <:+ buf := by
    intro p h h'
    rw [endsWith, List.isSuffixOf_iff_suffix.2 h'] at h; cases h
  unfold processRaw
  simp only
  cases h4 : endsWith (lit "\r\n.\r") buf with
  | true => simp; omega
  | false =>
  cases h3 : endsWith (lit "\r\n.") buf with
  | true =>
    simp
    rcases hcase with rfl | rfl | rfl | rfl
    · omega
    · omega
    · omega
    · exact absurd h (key _ h4)
  | false =>
  cases h2 : endsWith (lit "\r\n") buf with
  | true =>
    simp
    rcases hcase with rfl | rfl | rfl | rfl
    · omega
    · omega
    · exact absurd h (key _ h3)
    · exact absurd h (key _ h4)
  | false =>
  cases h1 : endsWith (lit "\r") buf with
  | true =>
    simp
    rcases hcase with rfl | rfl | rfl | rfl
    · omega
    · exact absurd h (key _ h2)
    · exact absurd h (key _ h3)
    · exact absurd h (key _ h4)
  | false =>
    rcases hcase with rfl | rfl | rfl | rfl
    · exact absurd h (key _ h1)
    · exact absurd h (key _ h2)
    · exact absurd h (key _ h3)
    · exact absurd h (key _ h4)

/-- If the stream ends with a `k`-prefix of the marker and goes on with the rest, then this is also true
for the longest prefix `m ≥ k` that matches. -/
theorem longest_ok {s b : Bytes} {k m : Nat} (hk : 1 ≤ k) (hm4 : m ≤ 4) (hkm : k ≤ m)
    (hs : term.take k <:+ s) (hs' : term.take m <:+ s) (hb : term.drop k <+: b) : term.drop m <+: b := by
  have hmk : (term.take k) <:+ (term.take m) := by
    apply List.suffix_of_suffix_length_le hs hs'
    simp [term]; omega
  have : (k = 1 ∨ k = 2 ∨ k = 3 ∨ k = 4) ∧ (m = 1 ∨ m = 2 ∨ m = 3 ∨ m = 4) := by omega
  obtain ⟨h1, h2⟩ := this
  rcases h1 with rfl | rfl | rfl | rfl <;> rcases h2 with rfl | rfl | rfl | rfl <;>
    first
    | exact hb
    | omega
    | (exfalso; revert hmk; decide)
    | (obtain ⟨t, rfl⟩ := hb; simp [term])

/-- Completeness invariant: `k` is the longest marker prefix at the end of the stream. -/
theorem receiveRaw_complete (bufs : List Bytes) : ∀ (k : Nat) (s : Bytes), k ≤ 4 → Ends k s →
    (∀ j, 1 ≤ j → j ≤ 4 → term.take j <:+ s → j ≤ k) → ¬ term <:+: s →
    (∀ b ∈ bufs, (0 : UInt8) ∉ b) → (∀ b ∈ bufs.dropLast, 4 ≤ b.length) →
    term <:+: s ++ bufs.flatten → (receiveRaw (k, false) bufs).2 = true := by
  induction bufs with
  | nil => intro k s _ _ _ hn _ _ h; simp at h; exact absurd h hn
  | cons b bs ih =>
    intro k s hk he hmax hn h0 hlen h
    rw [receiveRaw]
    simp only [Bool.false_eq_true, if_false]
    have hb0 : (0 : UInt8) ∉ b := h0 b (by simp)
    have hspec := rawState_spec b (k, false)
    cases hr : (processRaw (k, false) b).2 with
    | true =>
      cases bs with
      | nil => simpa [receiveRaw] using hr
      | cons c cs => rw [receiveRaw]; simp [hr]
    | false =>
      have hno : ¬ term <:+: s ++ b := by
        intro hin
        have : (processRaw (k, false) b).2 = true := by
          rw [processRaw_eof k b hk]
          rcases infix_append hin with h1 | h1 | ⟨u, v, h1, h2, h3, h4, h5⟩
          · exact absurd h1 hn
          · right
            exact ⟨h1.length_le, by rw [hasTerminator_iff, cstr_id hb0]; exact h1⟩
          · left
            obtain ⟨j, hj1, hj4, rfl, rfl⟩ := split_term h1 h2 h3
            have hjk := hmax j hj1 hj4 h4
            exact ⟨by omega, longest_ok hj1 hk hjk h4 he h5⟩
        rw [hr] at this; cases this
      cases bs with
      | nil => simp at h; exact absurd h hno
      | cons c cs =>
        have hb4 : 4 ≤ b.length := hlen b (by simp)
        have heq : processRaw (k, false) b = ((processRaw (k, false) b).1, false) := Prod.ext rfl hr
        rw [heq]
        apply ih _ (s ++ b) hspec.1 (hspec.2.trans (List.suffix_append _ _)) _ hno
          (fun x hx => h0 x (List.mem_cons_of_mem _ hx))
        · intro x hx
          apply hlen; simp only [List.dropLast_cons_cons, List.mem_cons]; exact Or.inr hx
        · rw [List.flatten_cons, ← List.append_assoc] at h; exact h
        · intro j hj1 hj4 hj
          exact rawState_max b _ j hj1 hj4 (suffix_of_long hj (by simp [term]; omega))

end Verif.Decoder
