import Verif.FeedSeason
import Verif.RpcParamProps
/-
Season and episode from the title of a feed item (C146).
-/
namespace Verif.FeedSeason
open CStr

/-! ### Specification -/

/-- A number with zeros before it. -/
def zeros (k n : Nat) : Bytes := List.replicate k 48 ++ dec n

/-- The notation of an episode: `S02E05`, `s2e5`, `2x05`, with a text for the number of the episode. -/
structure Notation where
  s : Bytes
  k : Nat
  n : Nat
  x : UInt8
  d : Bytes

def Notation.text (w : Notation) : Bytes := w.s ++ (zeros w.k w.n ++ w.x :: w.d)

def Notation.Ok (w : Notation) : Prop :=
  (w.s = [] ∨ w.s = lit "s" ∨ w.s = lit "S") ∧ w.n ≤ 2147483647 ∧ (w.x = 101 ∨ w.x = 69 ∨ w.x = 120 ∨ w.x = 88) ∧ w.d ≠ [] ∧ (∀ c ∈ w.d, isDigit c = true) ∧ w.d.length ≤ 98

/-- A season with at least two digits. -/
def two (n : Nat) : Bytes := if n < 10 then 48 :: dec n else dec n

/-! ### Proofs -/

theorem take_digits : ∀ (d r : Bytes), (∀ c ∈ d, isDigit c = true) → (∀ c, r.head? = some c → isDigit c = false) → (d ++ r).takeWhile isDigit = d ∧ (d ++ r).dropWhile isDigit = r
  | [], [], _, _ => ⟨rfl, rfl⟩
  | [], c :: r, _, h => by
    have := h c rfl
    rw [List.nil_append, List.takeWhile_cons, List.dropWhile_cons, this]
    exact ⟨rfl, rfl⟩
  | c :: d, r, hd, h => by
    obtain ⟨i1, i2⟩ := take_digits d r (fun x hx => hd x (List.mem_cons_of_mem _ hx)) h
    rw [List.cons_append, List.takeWhile_cons, List.dropWhile_cons, hd c List.mem_cons_self]
    exact ⟨by rw [if_pos rfl, i1], by rw [if_pos rfl, i2]⟩

theorem no_digit_take (r : Bytes) (h : ∀ c, r.head? = some c → isDigit c = false) : r.takeWhile isDigit = [] := by
  have := (take_digits [] r (fun _ hc => nomatch hc) h).1
  rwa [List.nil_append] at this

theorem here_none (y : UInt8) (t : Bytes) (h : ∀ c, t.head? = some c → isDigit c = false) (h2 : ∀ c q, t = c :: q → (c = 115 ∨ c = 83) → ∀ z, q.head? = some z → isDigit z = false) :
    matchHere (y :: t) = none := by
  unfold matchHere
  dsimp only
  split
  · rfl
  · rw [if_pos]
    cases t with
    | nil => rfl
    | cons c q =>
      rw [skipS]
      by_cases hc : c = 115 ∨ c = 83
      · rw [if_pos (by simpa using hc)]
        exact no_digit_take q (h2 c q rfl hc)
      · rw [if_neg (by simpa using hc)]
        exact no_digit_take _ h

theorem alnum_digit {c : UInt8} (h : isDigit c = true) : alnum c = true := by unfold alnum; rw [h]; rfl
theorem not_alnum {c : UInt8} (h : alnum c = false) : isDigit c = false ∧ letter c = false := by
  unfold alnum at h
  simpa using h

/-- Text without digits is passed. -/
theorem skip_text (b : UInt8) (x : Bytes) (hb : alnum b = false) : ∀ a : Bytes, (∀ c ∈ a, isDigit c = false) → firstMatch (a ++ b :: x) = firstMatch (b :: x)
  | [], _ => rfl
  | y :: a, h => by
    have ha : ∀ c ∈ a, isDigit c = false := fun c hc => h c (List.mem_cons_of_mem _ hc)
    have hh : ∀ (l : Bytes), (∀ c ∈ l, isDigit c = false) → ∀ c, (l ++ b :: x).head? = some c → isDigit c = false := by
      intro l hl c hc
      cases l with
      | nil => cases hc; exact (not_alnum hb).1
      | cons z l => cases hc; exact hl _ List.mem_cons_self
    rw [List.cons_append, firstMatch, here_none y (a ++ b :: x) (hh a ha) ?_]
    · exact skip_text b x hb a ha
    · intro c q e hc z hz
      cases a with
      | nil =>
        rw [List.nil_append] at e
        injection e with e1 _
        subst e1
        have := (not_alnum hb).2
        rcases hc with hc | hc <;> subst hc <;> exact absurd this (by decide +kernel)
      | cons w a =>
        rw [List.cons_append] at e
        injection e with _ e2
        rw [← e2] at hz
        exact hh a (fun c hc => ha c (List.mem_cons_of_mem _ hc)) z hz

theorem all_alnum : ∀ (a r : Bytes), (∀ c ∈ a, alnum c = true) → firstMatch (a ++ r) = firstMatch r
  | [], _, _ => rfl
  | y :: a, r, h => by
    rw [List.cons_append, firstMatch]
    have : matchHere (y :: (a ++ r)) = none := by unfold matchHere; dsimp only; rw [if_pos (h y List.mem_cons_self)]
    rw [this]
    exact all_alnum a r (fun c hc => h c (List.mem_cons_of_mem _ hc))

theorem no_digits : ∀ a : Bytes, (∀ c ∈ a, isDigit c = false) → firstMatch a = none
  | [], _ => rfl
  | y :: a, h => by
    have ha : ∀ c ∈ a, isDigit c = false := fun c hc => h c (List.mem_cons_of_mem _ hc)
    rw [firstMatch, here_none y a ?_ ?_]
    · exact no_digits a ha
    · intro c hc; exact ha c (List.mem_of_mem_head? hc)
    · intro c q e _ z hz; exact ha z (by rw [e]; exact List.mem_cons_of_mem _ (List.mem_of_mem_head? hz))

theorem zeros_digits (k n : Nat) : ∀ c ∈ zeros k n, isDigit c = true := by
  intro c hc
  rcases List.mem_append.1 hc with h | h
  · rw [List.eq_of_mem_replicate h]; decide +kernel
  · exact isDigit_dec n c h

theorem zeros_ne (k n : Nat) : zeros k n ≠ [] := by
  intro h
  have := (List.append_eq_nil_iff.1 h).2
  obtain ⟨d, l, h', _⟩ := decAux_ne_nil (n + 1) n (by omega)
  unfold dec at this
  rw [h'] at this
  exact nomatch this

/-- `atoi` of a number with zeros, whatever follows. -/
theorem zeros_value (k n : Nat) (hn : n ≤ 2147483647) (r : Bytes) (hr : ∀ c, r.head? = some c → isDigit c = false) : OptStore.intOf (zeros k n ++ r) = n := by
  have hv : OptStore.intOf (dec n ++ r) = n := by
    have := RpcParam.intOf_decInt (n : Int) (by omega) (by omega) r hr
    rw [show decInt (n : Int) = dec n by unfold decInt; rw [if_neg (by omega)]; congr 1] at this
    exact this
  induction k with
  | zero => exact hv
  | succ k ih =>
    rw [← ih]
    have hd : ∀ l : Bytes, isDigit (l.headD 0) = true → atoll (48 :: l) = atoll l := by
      intro l hl
      cases l with
      | nil => exact absurd hl (by decide)
      | cons c l =>
        simp only [List.headD_cons] at hl
        have hsp : isSpace c = false ∧ c ≠ 45 ∧ c ≠ 43 := by
          unfold isDigit at hl
          simp only [Bool.and_eq_true, decide_eq_true_eq] at hl
          refine ⟨?_, ?_, ?_⟩
          · unfold isSpace
            simp only [Bool.or_eq_false_iff, Bool.and_eq_false_iff, decide_eq_false_iff_not, beq_eq_false_iff_ne]
            constructor
            · intro e; subst e; exact absurd hl.1 (by decide)
            · right; omega
          · intro e; subst e; exact absurd hl.1 (by decide)
          · intro e; subst e; exact absurd hl.1 (by decide)
        unfold atoll
        rw [List.dropWhile_cons, List.dropWhile_cons, hsp.1, show isSpace 48 = false by decide +kernel]
        simp only [Bool.false_eq_true, if_false]
        rw [if_neg (by decide), if_neg (by decide), if_neg hsp.2.1, if_neg hsp.2.2]
        congr 2
    unfold OptStore.intOf
    congr 1
    unfold zeros
    rw [List.replicate_succ, List.cons_append, List.cons_append]
    refine hd _ ?_
    cases hq : (List.replicate k 48 ++ dec n ++ r) with
    | nil =>
      have := (List.append_eq_nil_iff.1 hq).1
      exact absurd this (zeros_ne k n)
    | cons c l =>
      cases hz : zeros k n with
      | nil => exact absurd hz (zeros_ne k n)
      | cons z zs =>
        have e : List.replicate k 48 ++ dec n ++ r = z :: (zs ++ r) := by
          show zeros k n ++ r = _
          rw [hz]; rfl
        rw [hq] at e
        injection e with e1 _
        rw [e1]
        exact zeros_digits k n z (by rw [hz]; exact List.mem_cons_self)

theorem digit_low {c : UInt8} (h : isDigit c = true) : upper c = c ∧ c ≠ 45 ∧ c ≠ 115 ∧ c ≠ 83 := by
  unfold isDigit at h
  simp only [Bool.and_eq_true, decide_eq_true_eq] at h
  refine ⟨?_, ?_, ?_, ?_⟩
  · unfold upper; rw [if_neg (by omega)]
  all_goals (intro e; subst e; exact absurd h (by decide))

theorem episode_digits (d : Bytes) (hd : ∀ c ∈ d, isDigit c = true) (hl : d.length ≤ 98) : episodeText d = 69 :: d := by
  unfold episodeText
  rw [List.take_of_length_le (l := d) (by omega), List.take_of_length_le (l := 69 :: d) (by simp; omega)]
  have h1 : (69 :: d).filter (fun c => c != 45) = 69 :: d := by
    rw [List.filter_eq_self]
    intro c hc
    rcases List.mem_cons.1 hc with e | e
    · rw [e]; decide
    · have := (digit_low (hd c e)).2.1
      simpa using this
  rw [h1, List.map_cons, show upper 69 = 69 by decide +kernel]
  congr 1
  rw [List.map_congr_left (fun c hc => (digit_low (hd c hc)).1), List.map_id'']
  exact fun _ => rfl

theorem fmt_two (n : Nat) : fmt02 (n : Int) = two n := by
  have e : decInt (n : Int) = dec n := by unfold decInt; rw [if_neg (by omega)]; congr 1
  unfold fmt02 two
  rw [e]
  by_cases h : n < 10
  · rw [if_pos (by omega), if_pos h]
  · rw [if_neg (by omega), if_neg h]

theorem skipS_notation (w : Notation) (hw : w.Ok) (r : Bytes) : skipS (w.text ++ r) = zeros w.k w.n ++ w.x :: (w.d ++ r) := by
  have e : w.text ++ r = w.s ++ (zeros w.k w.n ++ w.x :: (w.d ++ r)) := by unfold Notation.text; simp
  rw [e]
  rcases hw.1 with h | h | h
  · rw [h, List.nil_append]
    cases hz : zeros w.k w.n with
    | nil => exact absurd hz (zeros_ne _ _)
    | cons z zs =>
      have := digit_low (zeros_digits w.k w.n z (by rw [hz]; exact List.mem_cons_self))
      rw [List.cons_append, skipS, if_neg (by simp [this.2.2.1, this.2.2.2])]
  · rw [h]; rfl
  · rw [h]; rfl

theorem x_facts (w : Notation) (hw : w.Ok) : isDigit w.x = false ∧ (w.x = 101 || w.x = 69 || w.x = 120 || w.x = 88) = true ∧ letter w.x = true := by
  rcases hw.2.2.1 with h | h | h | h <;> rw [h] <;> decide +kernel

theorem here_notation (b : UInt8) (w : Notation) (r : Bytes) (hb : alnum b = false) (hw : w.Ok) (hr : ∀ c, r.head? = some c → isDigit c = false) :
    matchHere (b :: (w.text ++ r)) = (tailOf r).map (fun e => (zeros w.k w.n ++ w.x :: (w.d ++ r), w.d ++ e)) := by
  obtain ⟨x1, x2, _⟩ := x_facts w hw
  obtain ⟨t1, t2⟩ := take_digits (zeros w.k w.n) (w.x :: (w.d ++ r)) (zeros_digits _ _) (fun c hc => by cases hc; exact x1)
  obtain ⟨t3, t4⟩ := take_digits w.d r hw.2.2.2.2.1 hr
  unfold matchHere
  dsimp only
  rw [if_neg (by rw [hb]; exact Bool.false_ne_true), skipS_notation w hw, t1, if_neg (zeros_ne _ _), t2]
  dsimp only
  rw [if_pos x2, t3, t4, if_neg hw.2.2.2.1]

/-- C146: season and episode are found in a title in each of the usual notations, if they stand between other characters than letters and digits: the season as `S` with
at least two digits, the episode as `E` with the digits as they are written. Before them the title has no digits, behind them no dash. -/
theorem season_found_partial (a r : Bytes) (b c : UInt8) (w : Notation) (ha : ∀ y ∈ a, isDigit y = false) (hb : alnum b = false) (hc : alnum c = false) (hc2 : c ≠ 45) (hw : w.Ok) :
    seasonEpisode (some (a ++ b :: (w.text ++ c :: r))) = some (some (83 :: two w.n, 69 :: w.d)) := by
  have hr : ∀ z, (c :: r).head? = some z → isDigit z = false := fun z hz => by cases hz; exact (not_alnum hc).1
  have ht : tailOf (c :: r) = some [] := by
    have hl := (not_alnum hc).2
    have h1 : (c = 101 || c = 69) = false := by
      cases hq : (c = 101 || c = 69 : Bool) with
      | false => rfl
      | true =>
        simp only [Bool.or_eq_true, decide_eq_true_eq] at hq
        rcases hq with hq | hq <;> subst hq <;> exact absurd hl (by decide +kernel)
    unfold tailOf
    dsimp only
    split
    · rename_i h
      split at h
      · rename_i q e; injection e with e1 _; exact absurd e1 hc2
      · exact nomatch h
    · rename_i c' q h
      split at h
      · rename_i q' e; injection e with e1 _; exact absurd e1 hc2
      · injection h with e1 e2
        subst e1
        rw [h1, Bool.false_and, Bool.false_and, if_neg Bool.false_ne_true, if_pos (by simp [ends, hc])]
  unfold seasonEpisode
  dsimp only
  rw [skip_text b _ hb a ha, firstMatch, here_notation b w (c :: r) hb hw hr, ht]
  simp only [Option.map_some, List.append_nil]
  have x1 := (x_facts w hw).1
  rw [zeros_value w.k w.n hw.2.1 _ (fun z hz => by cases hz; exact x1), fmt_two, episode_digits w.d hw.2.2.2.2.1 hw.2.2.2.2.2]

/-- C146: titles which name the same season, in whatever notation, and write the number of the episode in the same way have the same season and episode. -/
theorem same_notation (a r a' r' : Bytes) (b c b' c' : UInt8) (w w' : Notation) (ha : ∀ y ∈ a, isDigit y = false) (hb : alnum b = false) (hc : alnum c = false) (hc2 : c ≠ 45) (hw : w.Ok)
    (ha' : ∀ y ∈ a', isDigit y = false) (hb' : alnum b' = false) (hc' : alnum c' = false) (hc2' : c' ≠ 45) (hw' : w'.Ok) (hn : w.n = w'.n) (hd : w.d = w'.d) :
    seasonEpisode (some (a ++ b :: (w.text ++ c :: r))) = seasonEpisode (some (a' ++ b' :: (w'.text ++ c' :: r'))) := by
  rw [season_found_partial a r b c w ha hb hc hc2 hw, season_found_partial a' r' b' c' w' ha' hb' hc' hc2' hw', hn, hd]

/-- C146: a double episode, `S01E05-E06`, `S01E05E06`, is found as such; its key is the same in both notations. -/
theorem double_episode (a r : Bytes) (b c e : UInt8) (w : Notation) (dash : Bool) (d : Bytes) (ha : ∀ y ∈ a, isDigit y = false) (hb : alnum b = false) (hc : alnum c = false)
    (he : e = 101 ∨ e = 69) (hd : d ≠ []) (hd2 : ∀ y ∈ d, isDigit y = true) (hw : w.Ok) (hl : w.d.length + d.length ≤ 96) :
    seasonEpisode (some (a ++ b :: (w.text ++ ((if dash then [45] else []) ++ e :: (d ++ c :: r))))) = some (some (83 :: two w.n, 69 :: (w.d ++ 69 :: d))) := by
  have ed : isDigit e = false ∧ (e = 101 || e = 69) = true ∧ upper e = 69 ∧ e ≠ 45 := by rcases he with h | h <;> rw [h] <;> decide +kernel
  have hr : ∀ z, ((if dash then [45] else []) ++ e :: (d ++ c :: r)).head? = some z → isDigit z = false := by
    intro z hz
    cases dash <;> cases hz
    · exact ed.1
    · decide +kernel
  obtain ⟨t1, t2⟩ := take_digits d (c :: r) hd2 (fun z hz => by cases hz; exact (not_alnum hc).1)
  have ht : tailOf ((if dash then [45] else []) ++ e :: (d ++ c :: r)) = some ((if dash then [45] else []) ++ e :: d) := by
    have hh : (((e = 101 || e = 69) && ((d ++ c :: r).takeWhile isDigit != []) && ends ((d ++ c :: r).dropWhile isDigit)) : Bool) = true := by
      rw [ed.2.1, t1, t2]
      simp [ends, hc, hd]
    cases dash with
    | true =>
      unfold tailOf
      simp only [if_true, List.cons_append, List.nil_append]
      rw [if_pos hh, t1]
    | false =>
      unfold tailOf
      simp only [Bool.false_eq_true, if_false, List.nil_append]
      split
      · rename_i h
        split at h
        · rename_i q e'; injection e' with e1 _; exact absurd e1 ed.2.2.2
        · exact nomatch h
      · rename_i c' q h
        split at h
        · rename_i q' e'; injection e' with e1 _; exact absurd e1 ed.2.2.2
        · injection h with e1 e2
          subst e1
          subst e2
          rw [if_pos hh, t1]
          rfl
  unfold seasonEpisode
  dsimp only
  rw [skip_text b _ hb a ha, firstMatch, here_notation b w _ hb hw hr, ht]
  simp only [Option.map_some]
  have x1 := (x_facts w hw).1
  rw [zeros_value w.k w.n hw.2.1 _ (fun z hz => by cases hz; exact x1), fmt_two]
  have hep : episodeText (w.d ++ ((if dash then [45] else []) ++ e :: d)) = 69 :: (w.d ++ 69 :: d) := by
    have hlen : (w.d ++ ((if dash then [45] else []) ++ e :: d)).length ≤ 98 := by cases dash <;> simp <;> omega
    unfold episodeText
    rw [List.take_of_length_le (l := w.d ++ _) (by omega), List.take_of_length_le (l := 69 :: _) (by rw [List.length_cons]; omega)]
    have f : ∀ l : Bytes, (∀ y ∈ l, isDigit y = true) → l.filter (fun c => c != 45) = l := fun l hl => by
      rw [List.filter_eq_self]; intro y hy; simpa using (digit_low (hl y hy)).2.1
    have u : ∀ l : Bytes, (∀ y ∈ l, isDigit y = true) → l.map upper = l := fun l hl => by
      rw [List.map_congr_left (fun c hc => (digit_low (hl c hc)).1), List.map_id'']
      exact fun _ => rfl
    have fd : ((if dash then [45] else []) : Bytes).filter (fun c => c != 45) = [] := by cases dash <;> rfl
    rw [List.filter_cons_of_pos (by decide), List.filter_append, List.filter_append, fd, List.filter_cons_of_pos (by simpa using ed.2.2.2), f _ hw.2.2.2.2.1, f _ hd2]
    rw [List.map_cons, List.nil_append, List.map_append, List.map_cons, u _ hw.2.2.2.2.1, u _ hd2, ed.2.2.1, show upper 69 = 69 by decide +kernel]
  rw [hep]

/-- C146, refuted: the number of the episode is not made equal: with and without a zero the same episode gets different duplicate keys. -/
theorem episode_zeros : seasonEpisode (some (lit "Show S02E05 x")) = some (some (lit "S02", lit "E05")) ∧ seasonEpisode (some (lit "Show S2E5 x")) = some (some (lit "S02", lit "E5")) := by
  decide +kernel

theorem text_alnum (w : Notation) (hw : w.Ok) : ∀ c ∈ w.text, alnum c = true := by
  intro c hc
  unfold Notation.text at hc
  rcases List.mem_append.1 hc with h | h
  · rcases hw.1 with e | e | e <;> rw [e] at h
    · exact nomatch h
    · rw [show c = 115 by simpa [lit] using h]; decide +kernel
    · rw [show c = 83 by simpa [lit] using h]; decide +kernel
  · rcases List.mem_append.1 h with h | h
    · exact alnum_digit (zeros_digits _ _ c h)
    · rcases List.mem_cons.1 h with e | h
      · rw [e]; unfold alnum; rw [(x_facts w hw).2.2]; simp
      · exact alnum_digit (hw.2.2.2.2.1 c h)

/-- C146, refuted: at the end of a title season and episode are not found. -/
theorem at_the_end (a : Bytes) (b : UInt8) (w : Notation) (ha : ∀ y ∈ a, isDigit y = false) (hb : alnum b = false) (hw : w.Ok) :
    seasonEpisode (some (a ++ b :: w.text)) = some none := by
  unfold seasonEpisode
  dsimp only
  have h := here_notation b w [] hb hw (fun _ h => nomatch h)
  rw [List.append_nil] at h
  rw [skip_text b _ hb a ha, firstMatch, h]
  have h2 := all_alnum w.text [] (text_alnum w hw)
  rw [List.append_nil] at h2
  have ht : tailOf [] = none := rfl
  rw [ht, Option.map_none]
  dsimp only
  rw [h2]
  rfl

/-- C146, refuted: nor at its beginning. -/
theorem at_the_beginning (r : Bytes) (w : Notation) (hr : ∀ y ∈ r, isDigit y = false) (hw : w.Ok) : seasonEpisode (some (w.text ++ r)) = some none := by
  unfold seasonEpisode
  dsimp only
  rw [all_alnum w.text r (text_alnum w hw), no_digits r hr]
  rfl

/-- C146, refuted: an item without a title ends the program when its season is needed. -/
theorem no_title : seasonEpisode none = none := rfl

/-! ### Examples -/

example : seasonEpisode (some (lit "My.Show.s3e07.720p")) = some (some (lit "S03", lit "E07")) := by decide +kernel
example : seasonEpisode (some (lit "My Show 3x07 (720p)")) = some (some (lit "S03", lit "E07")) := by decide +kernel
example : seasonEpisode (some (lit "My Show S03E07-e08.x")) = some (some (lit "S03", lit "E07E08")) := by decide +kernel
example : seasonEpisode (some (lit "My Show S03E07-08.x")) = some (some (lit "S03", lit "E07")) := by decide +kernel
example : (Notation.mk (lit "s") 0 3 101 (lit "07")).Ok ∧ (Notation.mk (lit "s") 0 3 101 (lit "07")).text = lit "s3e07" := by
  refine ⟨⟨Or.inr (Or.inl rfl), by decide, by decide, by decide +kernel, by decide +kernel, by decide +kernel⟩, by decide +kernel⟩

end Verif.FeedSeason
