import Verif.Tokens
import Verif.FeedFilterProps
/-! What the tokens of a text are (used by C37 and others). -/
namespace Verif.Tokens
open CStr FeedFilter

/-- `p` is one of the longest parts of the text without separators. -/
def Run (sep : UInt8 → Bool) (text p : Bytes) : Prop :=
  ∃ a c, text = a ++ p ++ c ∧ p ≠ [] ∧ (∀ x ∈ p, ¬ sep x = true) ∧ (∀ x, a.getLast? = some x → sep x = true) ∧
    (∀ x, c.head? = some x → sep x = true)

/-- `w` is a token of the text: such a part without the blanks around it, if it is not empty. -/
def IsToken (sep : UInt8 → Bool) (text w : Bytes) : Prop := ∃ p, Run sep text p ∧ Stripped p w ∧ w ≠ []

theorem run_sep (sep : UInt8 → Bool) {X s p : Bytes} {c : UInt8} (hX : ∀ x ∈ X, ¬ sep x = true) (hc : sep c = true) :
    Run sep (X ++ c :: s) p ↔ (X ≠ [] ∧ p = X) ∨ Run sep s p := by
  constructor
  · rintro ⟨a, b, he, hp, hps, ha, hb⟩
    rw [List.append_assoc] at he
    rcases List.append_eq_append_iff.mp he with ⟨a', ha', h2⟩ | ⟨d, hd, h2⟩
    · cases a' with
      | nil =>
        rw [List.nil_append] at h2
        cases p with
        | nil => exact absurd rfl hp
        | cons q p =>
          injection h2 with h2 _
          exact absurd hc (by rw [h2]; exact hps q List.mem_cons_self)
      | cons q a'' =>
        injection h2 with h2 h3
        refine Or.inr ⟨a'', b, by rw [h3, List.append_assoc]; rfl, hp, hps, ?_, hb⟩
        intro x hx
        apply ha x
        rw [ha', List.getLast?_append, List.getLast?_cons]
        rw [hx]; rfl
    · have ha0 : a = [] := by
        cases hl : a.getLast? with
        | none => exact List.getLast?_eq_none_iff.mp hl
        | some x =>
          have : x ∈ X := by rw [hd]; exact List.mem_append_left _ (List.mem_of_getLast? hl)
          exact absurd (ha x hl) (hX x this)
      subst ha0
      rw [List.nil_append] at hd
      subst hd
      left
      rcases List.append_eq_append_iff.mp h2 with ⟨e, he1, he2⟩ | ⟨e, he1, he2⟩
      · cases e with
        | nil => rw [List.append_nil] at he1; exact ⟨by rw [he1]; exact hp, he1.symm⟩
        | cons q e =>
          rw [he2] at hb
          have : q ∈ X := by rw [he1]; exact List.mem_append_right _ List.mem_cons_self
          exact absurd (hb q rfl) (hX q this)
      · cases e with
        | nil => rw [List.append_nil] at he1; exact ⟨by rw [← he1]; exact hp, he1⟩
        | cons q e =>
          injection he2 with h3 _
          exact absurd hc (by rw [h3]; exact hps q (by rw [he1]; exact List.mem_append_right _ List.mem_cons_self))
  · rintro (⟨h1, rfl⟩ | ⟨a, b, he, hp, hps, ha, hb⟩)
    · exact ⟨[], c :: s, rfl, h1, hX, (fun _ h => nomatch h), (fun x h => by injection h with h; rw [← h]; exact hc)⟩
    · refine ⟨X ++ c :: a, b, by rw [he]; simp, hp, hps, ?_, hb⟩
      intro x hx
      rw [List.getLast?_append, List.getLast?_cons] at hx
      cases hl : a.getLast? with
      | none =>
        rw [hl] at hx
        injection hx with hx
        rw [← hx]; exact hc
      | some y =>
        rw [hl] at hx
        injection hx with hx
        rw [← hx]; exact ha y hl

theorem run_end (sep : UInt8 → Bool) {X p : Bytes} (hX : ∀ x ∈ X, ¬ sep x = true) : Run sep X p ↔ (X ≠ [] ∧ p = X) := by
  constructor
  · rintro ⟨a, b, he, hp, hps, ha, hb⟩
    have ha0 : a = [] := by
      cases hl : a.getLast? with
      | none => exact List.getLast?_eq_none_iff.mp hl
      | some x =>
        have : x ∈ X := by
          rw [he, List.append_assoc]; exact List.mem_append_left _ (List.mem_of_getLast? hl)
        exact absurd (ha x hl) (hX x this)
    have hb0 : b = [] := by
      cases b with
      | nil => rfl
      | cons q b => exact absurd (hb q rfl) (hX q (by rw [he]; exact List.mem_append_right _ List.mem_cons_self))
    subst ha0; subst hb0
    rw [List.append_nil, List.nil_append] at he
    exact ⟨by rw [he]; exact hp, he.symm⟩
  · rintro ⟨h, rfl⟩
    exact ⟨[], [], by simp, h, hX, (fun _ h => nomatch h), (fun _ h => nomatch h)⟩

theorem mem_pieces (sep : UInt8 → Bool) (p : Bytes) : ∀ (s cur : Bytes), (∀ x ∈ cur, ¬ sep x = true) →
    (p ∈ pieces sep cur s ↔ Run sep (cur.reverse ++ s) p) := by
  have flush : ∀ cur : Bytes, p ∈ (if cur = [] then [] else [cur.reverse]) ↔ (cur.reverse ≠ [] ∧ p = cur.reverse) := by
    intro cur
    by_cases h : cur = []
    · subst h; simp
    · rw [if_neg h, List.mem_singleton]; simp [h]
  have rev : ∀ {cur : Bytes}, (∀ x ∈ cur, ¬ sep x = true) → ∀ x ∈ cur.reverse, ¬ sep x = true :=
    fun h x hx => h x (List.mem_reverse.mp hx)
  intro s
  induction s with
  | nil =>
    intro cur hcur
    rw [pieces, flush, List.append_nil, run_end sep (rev hcur)]
  | cons c s ih =>
    intro cur hcur
    rw [pieces]
    by_cases hc : sep c = true
    · rw [if_pos hc, List.mem_append, flush, ih [] (fun _ h => nomatch h), run_sep sep (rev hcur) hc]
      rfl
    · rw [if_neg hc, ih (c :: cur), List.reverse_cons, List.append_assoc]
      · rfl
      · intro x hx
        rcases List.mem_cons.mp hx with rfl | hx
        · exact hc
        · exact hcur x hx

/-- The tokens are exactly those described by `IsToken`. -/
theorem mem_tokens (sep : UInt8 → Bool) (s w : Bytes) : w ∈ tokens sep s ↔ IsToken sep s w := by
  unfold tokens
  rw [List.mem_filter, List.mem_map]
  have hp : ∀ p, p ∈ pieces sep [] s ↔ Run sep s p := fun p => mem_pieces sep p s [] (fun _ h => nomatch h)
  constructor
  · rintro ⟨⟨p, h1, rfl⟩, h2⟩
    exact ⟨p, (hp p).mp h1, trim_stripped p, by intro h; rw [h] at h2; exact nomatch h2⟩
  · rintro ⟨p, h1, h2, h3⟩
    exact ⟨⟨p, (hp p).mpr h1, stripped_unique (trim_stripped p) h2 h3⟩, by cases w with | nil => exact absurd rfl h3 | cons => rfl⟩

/-- Two addresses with blanks and an empty piece. -/
example : tokens (fun c => c == 44 || c == 59) (lit "10.0.0.*, ;127.0.0.1") = [lit "10.0.0.*", lit "127.0.0.1"] := by decide

end Verif.Tokens
