import Verif.FeedFilter
import Verif.FeedExprProps
import Verif.WildMaskProps
/-
C34: the first deciding rule of a feed filter wins. C35: from the text of a rule to its boolean meaning.
C58: what a condition on a text means.
-/
namespace Verif.FeedFilter
open CStr FeedExpr WildMask

/-! ### C34, specification -/

/-- What the options of a rule do to the settings of an item: every setting is the one of the rule if the
rule has it and stays otherwise; increments are added; nothing else changes. -/
structure Configured (o : Opts) (a b : Item) : Prop where
  pause : b.pause = o.pause.getD a.pause
  category : b.category = o.category.getD a.category
  priority : b.priority = o.priority.getD a.priority + o.addPriority.getD 0
  score : b.score = o.score.getD a.score + o.addScore.getD 0
  mode : b.mode = o.mode.getD a.mode
  key : b.key = appendKey (o.key.getD (if o.rage = none ∧ o.tvdb = none ∧ o.tvmaze = none ∧ o.series = none
      then a.key else buildKey o a)) (o.addKey.getD [])
  same : b.imdb = a.imdb ∧ b.rage = a.rage ∧ b.tvdb = a.tvdb ∧ b.tvmaze = a.tvmaze ∧ b.season = a.season ∧
    b.seasonNum = a.seasonNum ∧ b.episode = a.episode ∧ b.episodeNum = a.episodeNum

/-- The same settings; the verdict and the number of the rule may differ. -/
def SameSettings (a b : Item) : Prop :=
  { a with status := .ignored, rule := 0 } = { b with status := .ignored, rule := 0 }

/-- A rule decides about an item: accept and reject if the expression matches, require if it does not. -/
def Decides (val : Item → Bytes → Bool) (r : Rule) (it : Item) : Prop :=
  r.valid = true ∧
  ((r.command = .accept ∧ matchTerms (val it) r.terms = true) ∨
   (r.command = .reject ∧ matchTerms (val it) r.terms = true) ∨
   (r.command = .require ∧ matchTerms (val it) r.terms = false))

/-- A rule only contributes its settings. -/
def Contributes (val : Item → Bytes → Bool) (r : Rule) (it : Item) : Prop :=
  r.valid = true ∧ r.command = .options ∧ matchTerms (val it) r.terms = true

/-- `Passed val rules a b`: going through the rules, none of which decides, the option rules which match
turn the item `a` into `b`. -/
inductive Passed (val : Item → Bytes → Bool) : List Rule → Item → Item → Prop
  | nil (a b) : SameSettings a b → Passed val [] a b
  | skip (r rs a b) : ¬ Decides val r a → ¬ Contributes val r a → Passed val rs a b → Passed val (r :: rs) a b
  | options (r rs a a' b) : Contributes val r a → Configured r.opts a a' → Passed val rs a' b →
      Passed val (r :: rs) a b

/-- There are two cases. Either no rule decides: the item is ignored. Or some rule decides and none
before it: the item is accepted by an accept rule, with the options of that rule, and rejected by a
reject or a require rule. In both cases exactly the option rules passed on the way, whose expressions
match, contributed their settings - in their order, each seeing the settings made by the ones before.
The number of the deciding rule is noted (`index` rules came before the list). -/
def Outcome (val : Item → Bytes → Bool) (rules : List Rule) (index : Nat) (it res : Item) : Prop :=
  (∃ b, Passed val rules it b ∧ SameSettings b res ∧ res.status = .ignored ∧ res.rule = 0) ∨
  (∃ before r after b, rules = before ++ r :: after ∧ Passed val before it b ∧ Decides val r b ∧
    res.rule = index + before.length + 1 ∧
    (r.command = .accept → res.status = .accepted ∧ Configured r.opts b res) ∧
    (r.command ≠ .accept → res.status = .rejected ∧ SameSettings b res))

/-! ### C34, proofs -/

theorem appendKey_nil (k : Bytes) : appendKey k [] = k := by unfold appendKey; simp

theorem applyOptions_all (o : Opts) (it : Item) : Configured o it (applyOptions o it) ∧
    (applyOptions o it).status = it.status ∧ (applyOptions o it).rule = it.rule := by
  have e1 : ∀ (x : Option Bool) (it : Item), ifHas x (fun v it => { it with pause := v }) it =
      { it with pause := x.getD it.pause } := by intro x it; cases x <;> rfl
  have e2 : ∀ (x : Option Bytes) (it : Item), ifHas x (fun v it => { it with category := v }) it =
      { it with category := x.getD it.category } := by intro x it; cases x <;> rfl
  have e3 : ∀ (x : Option Int) (it : Item), ifHas x (fun v it => { it with priority := v }) it =
      { it with priority := x.getD it.priority } := by intro x it; cases x <;> rfl
  have e4 : ∀ (x : Option Int) (it : Item), ifHas x (fun v it => { it with priority := it.priority + v }) it =
      { it with priority := it.priority + x.getD 0 } := by
    intro x it
    cases x
    · show it = { it with priority := it.priority + 0 }
      rw [Int.add_zero]
    · rfl
  have e5 : ∀ (x : Option Int) (it : Item), ifHas x (fun v it => { it with score := v }) it =
      { it with score := x.getD it.score } := by intro x it; cases x <;> rfl
  have e6 : ∀ (x : Option Int) (it : Item), ifHas x (fun v it => { it with score := it.score + v }) it =
      { it with score := it.score + x.getD 0 } := by
    intro x it
    cases x
    · show it = { it with score := it.score + 0 }
      rw [Int.add_zero]
    · rfl
  have e7 : ∀ (x : Option Bytes) (it : Item), ifHas x (fun v it => { it with key := v }) it =
      { it with key := x.getD it.key } := by intro x it; cases x <;> rfl
  have e8 : ∀ (x : Option Bytes) (it : Item), ifHas x (fun v it => { it with key := appendKey it.key v }) it =
      { it with key := appendKey it.key (x.getD []) } := by
    intro x it
    cases x
    · show it = { it with key := appendKey it.key [] }
      rw [appendKey_nil]
    · rfl
  have e9 : ∀ (x : Option Mode) (it : Item), ifHas x (fun v it => { it with mode := v }) it =
      { it with mode := x.getD it.mode } := by intro x it; cases x <;> rfl
  have ek : ∀ it : Item, (if (o.rage.isSome || o.tvdb.isSome || o.tvmaze.isSome || o.series.isSome) = true then
      { it with key := buildKey o it } else it) = { it with key :=
        if o.rage = none ∧ o.tvdb = none ∧ o.tvmaze = none ∧ o.series = none then it.key else buildKey o it } := by
    intro it
    by_cases h : o.rage = none ∧ o.tvdb = none ∧ o.tvmaze = none ∧ o.series = none
    · rw [if_pos h, if_neg (by simp [h])]
    · rw [if_neg h, if_pos]
      cases h1 : o.rage <;> cases h2 : o.tvdb <;> cases h3 : o.tvmaze <;> cases h4 : o.series <;>
        simp_all
  unfold applyOptions
  dsimp only
  rw [e1, e2, e3, e4, e5, e6, ek, e7, e8, e9]
  exact ⟨⟨rfl, rfl, rfl, rfl, rfl, rfl, rfl, rfl, rfl, rfl, rfl, rfl, rfl, rfl⟩, rfl, rfl⟩

theorem applyOptions_configured (o : Opts) (it : Item) : Configured o it (applyOptions o it) :=
  (applyOptions_all o it).1

theorem configured_status {o : Opts} {a b : Item} (s : Status) (n : Nat)
    (h : Configured o { a with status := s, rule := n } b) : Configured o a b :=
  ⟨h.1, h.2, h.3, h.4, h.5, h.6, h.7⟩

theorem sameSettings_refl (a : Item) : SameSettings a a := rfl

/-- The verdict does not depend on the verdict noted before. -/
theorem matchTerms_congr {f g : Bytes → Bool} (h : f = g) (t : List Term) :
    matchTerms f t = matchTerms g t := by rw [h]

theorem passed_verdict {val : Item → Bytes → Bool} {rs : List Rule} {a b b' : Item}
    (h : Passed val rs a b) (hs : SameSettings b b') : Passed val rs a b' := by
  induction h with
  | nil a b h => exact .nil _ _ (h.trans hs)
  | skip r rs a b h1 h2 _ ih => exact .skip _ _ _ _ h1 h2 (ih hs)
  | options r rs a a' b h1 h2 _ ih => exact .options _ _ _ _ _ h1 h2 (ih hs)

/-- **C34.** For every list of rules and every item: the result is as described by `Outcome`. -/
theorem first_deciding_rule (val : Item → Bytes → Bool) : ∀ (rules : List Rule) (index : Nat) (it : Item),
    Outcome val rules index it (matchRules val index rules it) := by
  intro rules
  induction rules with
  | nil => intro index it; exact Or.inl ⟨it, .nil _ _ rfl, rfl, rfl, rfl⟩
  | cons r rs ih =>
    intro index it
    -- what is left to do once it is known that the rule does not decide
    have goOn : ∀ it', matchRules val index (r :: rs) it = matchRules val (index + 1) rs it' →
        (∀ b, Passed val rs it' b → Passed val (r :: rs) it b) →
        (∀ before b, Passed val before it' b → Passed val (r :: before) it b) →
        Outcome val (r :: rs) index it (matchRules val index (r :: rs) it) := by
      intro it' he h1 h2
      have := ih (index + 1) it'
      rw [← he] at this
      rcases this with ⟨b, hp, hrest⟩ | ⟨before, r', after, b, e, hp, hd, hi, hrest⟩
      · exact Or.inl ⟨b, h1 b hp, hrest⟩
      · refine Or.inr ⟨r :: before, r', after, b, by rw [e]; rfl, h2 before b hp, hd, ?_, hrest⟩
        rw [hi, List.length_cons]; omega
    have skip : ¬ Decides val r it → ¬ Contributes val r it →
        matchRules val index (r :: rs) it = matchRules val (index + 1) rs it →
        Outcome val (r :: rs) index it (matchRules val index (r :: rs) it) :=
      fun h1 h2 he => goOn it he (fun b hb => .skip _ _ _ _ h1 h2 hb) (fun _ b hb => .skip _ _ _ _ h1 h2 hb)
    by_cases hv : r.valid = true
    · cases hm : matchTerms (val it) r.terms with
      | true =>
        cases hc : r.command with
        | accept =>
          refine Or.inr ⟨[], r, rs, it, rfl, .nil _ _ rfl, ⟨hv, Or.inl ⟨hc, hm⟩⟩, ?_⟩
          have he : matchRules val index (r :: rs) it =
              applyOptions r.opts { it with status := .accepted, rule := index + 1 } := by
            unfold matchRules; simp only [if_pos hv, hc, hm, if_true]
          have hconf := applyOptions_configured r.opts { it with status := .accepted, rule := index + 1 }
          have hst : ∀ (o : Opts) (it : Item), (applyOptions o it).status = it.status ∧ (applyOptions o it).rule = it.rule :=
            fun o it => (applyOptions_all o it).2
          rw [he]
          refine ⟨(hst _ _).2, fun _ => ⟨(hst _ _).1, configured_status _ _ hconf⟩, fun hne => absurd hc hne⟩
        | reject =>
          refine Or.inr ⟨[], r, rs, it, rfl, .nil _ _ rfl, ⟨hv, Or.inr (Or.inl ⟨hc, hm⟩)⟩, ?_⟩
          have he : matchRules val index (r :: rs) it = { it with status := .rejected, rule := index + 1 } := by
            unfold matchRules; simp only [if_pos hv, hc, hm, if_true]
          rw [he]
          exact ⟨rfl, fun h => (nomatch (hc.symm.trans h)), fun _ => ⟨rfl, rfl⟩⟩
        | require =>
          refine skip ?_ ?_ ?_
          · rintro ⟨_, h | h | h⟩
            · exact nomatch (hc.symm.trans h.1)
            · exact nomatch (hc.symm.trans h.1)
            · exact nomatch (hm.symm.trans h.2)
          · rintro ⟨_, h, _⟩; exact nomatch (hc.symm.trans h)
          · rw [matchRules]; simp only [if_pos hv, hc, hm, Bool.not_true, Bool.false_eq_true, if_false]
        | options =>
          have hcon : Contributes val r it := ⟨hv, hc, hm⟩
          have hconf := configured_status _ _
            (applyOptions_configured r.opts { it with status := .accepted, rule := index + 1 })
          refine goOn (applyOptions r.opts { it with status := .accepted, rule := index + 1 }) ?_
            (fun b hb => .options _ _ _ _ _ hcon hconf hb) (fun _ b hb => .options _ _ _ _ _ hcon hconf hb)
          rw [matchRules]; simp only [if_pos hv, hc, hm, if_true]
        | comment =>
          refine skip ?_ ?_ ?_
          · rintro ⟨_, h | h | h⟩ <;> exact nomatch (hc.symm.trans h.1)
          · rintro ⟨_, h, _⟩; exact nomatch (hc.symm.trans h)
          · rw [matchRules]; simp only [if_pos hv, hc]
      | false =>
        cases hc : r.command with
        | require =>
          refine Or.inr ⟨[], r, rs, it, rfl, .nil _ _ rfl, ⟨hv, Or.inr (Or.inr ⟨hc, hm⟩)⟩, ?_⟩
          have he : matchRules val index (r :: rs) it = { it with status := .rejected, rule := index + 1 } := by
            unfold matchRules; simp only [if_pos hv, hc, hm, Bool.not_false, if_true]
          rw [he]
          exact ⟨rfl, fun h => (nomatch (hc.symm.trans h)), fun _ => ⟨rfl, rfl⟩⟩
        | accept =>
          refine skip ?_ ?_ ?_
          · rintro ⟨_, h | h | h⟩
            · exact nomatch (hm.symm.trans h.2)
            · exact nomatch (hm.symm.trans h.2)
            · exact nomatch (hc.symm.trans h.1)
          · rintro ⟨_, h, _⟩; exact nomatch (hc.symm.trans h)
          · rw [matchRules]; simp only [if_pos hv, hc, hm, Bool.false_eq_true, if_false]
        | reject =>
          refine skip ?_ ?_ ?_
          · rintro ⟨_, h | h | h⟩
            · exact nomatch (hm.symm.trans h.2)
            · exact nomatch (hm.symm.trans h.2)
            · exact nomatch (hc.symm.trans h.1)
          · rintro ⟨_, h, _⟩; exact nomatch (hc.symm.trans h)
          · rw [matchRules]; simp only [if_pos hv, hc, hm, Bool.false_eq_true, if_false]
        | options =>
          refine skip ?_ ?_ ?_
          · rintro ⟨_, h | h | h⟩ <;> exact nomatch (hc.symm.trans h.1)
          · rintro ⟨_, _, h⟩; exact nomatch (hm.symm.trans h)
          · rw [matchRules]; simp only [if_pos hv, hc, hm, Bool.false_eq_true, if_false]
        | comment =>
          refine skip ?_ ?_ ?_
          · rintro ⟨_, h | h | h⟩ <;> exact nomatch (hc.symm.trans h.1)
          · rintro ⟨_, h, _⟩; exact nomatch (hc.symm.trans h)
          · rw [matchRules]; simp only [if_pos hv, hc]
    · refine skip (fun h => hv h.1) (fun h => hv h.1) ?_
      rw [matchRules]; rw [if_neg hv]

/-- Three rules: an option rule which matches, a reject rule which does not, an accept rule which does
(the terms are the conditions "y" (true) and "n" (false)). -/
example : let it : Item := ⟨false, [], 0, 0, [], .score, 0, 0, 0, 0, [], 0, [], 0, .ignored, 0⟩
    let res := matchRules (fun _ b => b == lit "y") 0
      [⟨true, .options, [.cond true (lit "y")], { addScore := some 5, pause := some true }⟩,
       ⟨true, .reject, [.cond true (lit "n")], {}⟩,
       ⟨true, .accept, [.cond true (lit "y"), .cond false (lit "n")], { addScore := some 7 }⟩,
       ⟨true, .reject, [.cond true (lit "y")], {}⟩] it
    res.status = .accepted ∧ res.rule = 3 ∧ res.score = 12 ∧ res.pause = true := by decide +kernel

/-! ### C35: from the text of a rule -/

/-- `Spaced tokens text`: the text consists of the tokens, separated by one or more blanks. -/
inductive Spaced : List Bytes → Bytes → Prop
  | last (t) : Spaced [t] t
  | cons (t ts s) (n : Nat) : Spaced ts s → Spaced (t :: ts) (t ++ List.replicate (n + 1) 32 ++ s)

theorem splitTerms_word (w : Bytes) (hw : (32 : UInt8) ∉ w) : ∀ (cur s : Bytes),
    splitTerms cur (w ++ s) = splitTerms (w.reverse ++ cur) s := by
  induction w with
  | nil => intro cur s; rfl
  | cons c w ih =>
    intro cur s
    have hc : c ≠ 32 := fun h => hw (by rw [h]; exact List.mem_cons_self)
    rw [List.cons_append, splitTerms, if_neg hc, ih (fun h => hw (List.mem_cons_of_mem _ h)),
      List.reverse_cons, List.append_assoc]
    rfl

theorem nextTerm_blanks (n : Nat) (s : Bytes) :
    splitTerms.nextTerm (List.replicate n 32 ++ s) = splitTerms.nextTerm s := by
  induction n with
  | zero => rfl
  | succ n ih =>
    show splitTerms.nextTerm (32 :: (List.replicate n 32 ++ s)) = _
    rw [splitTerms.nextTerm, if_pos rfl, ih]

theorem spaced_front {ts : List Bytes} {s : Bytes} (h : Spaced ts s)
    (ht : ∀ t ∈ ts, t ≠ [] ∧ (32 : UInt8) ∉ t) : ∃ c s', s = c :: s' ∧ c ≠ 32 := by
  cases h with
  | last =>
    cases s with
    | nil => exact absurd rfl (ht [] List.mem_cons_self).1
    | cons c s => exact ⟨c, s, rfl, fun hc => (ht _ List.mem_cons_self).2 (by rw [hc]; exact List.mem_cons_self)⟩
  | cons t ts s n _ =>
    cases t with
    | nil => exact absurd rfl (ht [] List.mem_cons_self).1
    | cons c t =>
      exact ⟨c, _, rfl, fun hc => (ht _ List.mem_cons_self).2 (by rw [hc]; exact List.mem_cons_self)⟩

/-- The terms of a text are its tokens. -/
theorem splitTerms_spaced {ts : List Bytes} {s : Bytes} (h : Spaced ts s) :
    (∀ t ∈ ts, t ≠ [] ∧ (32 : UInt8) ∉ t) → splitTerms [] s = ts := by
  induction h with
  | last t =>
    intro ht
    have := splitTerms_word t (ht t List.mem_cons_self).2 [] []
    rw [List.append_nil] at this
    rw [this, splitTerms, List.append_nil, List.reverse_reverse]
  | cons t ts s n hs ih =>
    intro ht
    rw [List.append_assoc, splitTerms_word t (ht t List.mem_cons_self).2, List.append_nil, List.replicate_succ,
      List.cons_append, splitTerms, if_pos rfl, nextTerm_blanks, List.reverse_reverse]
    have hts : ∀ t ∈ ts, t ≠ [] ∧ (32 : UInt8) ∉ t := fun t h => ht t (List.mem_cons_of_mem _ h)
    rw [← ih hts]
    obtain ⟨c, s', rfl, hc⟩ := spaced_front hs hts
    rw [splitTerms.nextTerm, if_neg hc, splitTerms, if_neg hc]

/-- No condition contains a blank or is empty. -/
def Expr.NoBlank : Expr → Prop
  | .cond b => b ≠ [] ∧ (32 : UInt8) ∉ b
  | .neg b => (32 : UInt8) ∉ b
  | .and a b => Expr.NoBlank a ∧ Expr.NoBlank b
  | .or a b => Expr.NoBlank a ∧ Expr.NoBlank b
  | .group a => Expr.NoBlank a

theorem write_tokens (e : Expr) (h : Expr.NoBlank e) :
    (∀ t ∈ e.write, t ≠ [] ∧ (32 : UInt8) ∉ t) ∧ (∀ t ∈ e.writeInAnd, t ≠ [] ∧ (32 : UInt8) ∉ t) ∧
    (∀ t ∈ e.writeInOr, t ≠ [] ∧ (32 : UInt8) ∉ t) := by
  have k1 : (lit "(") ≠ [] ∧ (32 : UInt8) ∉ lit "(" := by decide +kernel
  have k2 : (lit ")") ≠ [] ∧ (32 : UInt8) ∉ lit ")" := by decide +kernel
  have k3 : (lit "|") ≠ [] ∧ (32 : UInt8) ∉ lit "|" := by decide +kernel
  have app : ∀ (a b : List Bytes), (∀ t ∈ a, t ≠ [] ∧ (32 : UInt8) ∉ t) → (∀ t ∈ b, t ≠ [] ∧ (32 : UInt8) ∉ t) →
      ∀ t ∈ a ++ b, t ≠ [] ∧ (32 : UInt8) ∉ t := by
    intro a b ha hb t ht
    rcases List.mem_append.mp ht with h | h
    · exact ha t h
    · exact hb t h
  have one : ∀ x : Bytes, (x ≠ [] ∧ (32 : UInt8) ∉ x) → ∀ t ∈ [x], t ≠ [] ∧ (32 : UInt8) ∉ t := by
    intro x hx t ht; rw [List.mem_singleton.mp ht]; exact hx
  induction e with
  | cond b => exact ⟨one _ h, one _ h, one _ h⟩
  | neg b =>
    have : (45 :: b) ≠ [] ∧ (32 : UInt8) ∉ (45 :: b) := by
      refine ⟨by simp, ?_⟩
      intro hm
      rcases List.mem_cons.mp hm with hm | hm
      · exact absurd hm (by decide)
      · exact h hm
    exact ⟨one _ this, one _ this, one _ this⟩
  | and a b iha ihb =>
    have ha := iha h.1
    have hb := ihb h.2
    exact ⟨app _ _ ha.2.1 hb.2.1, app _ _ ha.2.1 hb.2.1,
      app _ _ (app _ _ (one _ k1) (app _ _ ha.2.1 hb.2.1)) (one _ k2)⟩
  | or a b iha ihb =>
    have ha := iha h.1
    have hb := ihb h.2
    have := app _ _ (app _ _ ha.2.2 (one _ k3)) hb.2.2
    exact ⟨this, app _ _ (app _ _ (one _ k1) this) (one _ k2), this⟩
  | group a iha =>
    have := app _ _ (app _ _ (one _ k1) (iha h).1) (one _ k2)
    exact ⟨this, this, this⟩

/-- **C35, proved part.** The text of the expression, its tokens separated by any number of blanks, is
split, compiled and evaluated to the boolean meaning. Missing: groups which mix conjunction and
disjunction without brackets and negated brackets, for which the claim is false
(`mixed_group_inconsistent`, `negated_bracket_ignored`). -/
theorem rule_text_value_partial (val : Bytes → Bool) (e : Expr) (hok : e.Ok) (hb : Expr.NoBlank e)
    (text : Bytes) (ht : Spaced e.write text) :
    matchTerms val ((splitTerms [] text).map compileTerm) = e.value val := by
  rw [splitTerms_spaced ht (write_tokens e hb).1]
  exact expression_value_partial val e hok

example : Spaced (Expr.or (.cond (lit "x")) (.neg (lit "age:>1"))).write (lit "x   | -age:>1") ∧
    splitTerms [] (lit "x   | -age:>1") = [lit "x", lit "|", lit "-age:>1"] := by
  refine ⟨?_, by decide +kernel⟩
  exact .cons (lit "x") _ _ 2 (.cons (lit "|") _ _ 0 (.last (lit "-age:>1")))

/-! ### C58, specification -/

/-- A separator of words. -/
def Sep (c : UInt8) : Prop := c ∈ lit " !\"#$%&'()*+,-./:;<=>?@[\\]^_`{|}~"

/-- Spaces, tabs and line ends. -/
def Blank (c : UInt8) : Prop := c = 10 ∨ c = 13 ∨ c = 32 ∨ c = 9

/-- `p` is one of the longest parts of the text without separators. -/
def Run (text p : Bytes) : Prop :=
  ∃ a c, text = a ++ p ++ c ∧ p ≠ [] ∧ (∀ x ∈ p, ¬ Sep x) ∧ (∀ x, a.getLast? = some x → Sep x) ∧
    (∀ x, c.head? = some x → Sep x)

/-- `w` is what remains of `p` without blanks around it. -/
def Stripped (p w : Bytes) : Prop :=
  ∃ a c, p = a ++ w ++ c ∧ (∀ x ∈ a, Blank x) ∧ (∀ x ∈ c, Blank x) ∧ (∀ x, w.head? = some x → ¬ Blank x) ∧
    (∀ x, w.getLast? = some x → ¬ Blank x)

/-- `w` is a word of the text. -/
def IsWord (text w : Bytes) : Prop := ∃ p, Run text p ∧ Stripped p w ∧ w ≠ []

/-- The condition asks for a part of the text, not for a word: it is written between two stars or
contains a separator which is not a wildcard. -/
def AsksForPart (param : Bytes) : Prop :=
  (2 ≤ param.length ∧ param.head? = some 42 ∧ param.getLast? = some 42) ∨
  (∃ c ∈ param, Sep c ∧ c ≠ 42 ∧ c ≠ 63 ∧ c ≠ 35)

/-! ### C58, proofs -/

theorem isSep_iff (c : UInt8) : isSep c = true ↔ Sep c := by
  unfold isSep Sep separators; rw [List.contains_iff_mem]

theorem isBlank_iff (c : UInt8) : isBlank c = true ↔ Blank c := by
  unfold isBlank Blank; simp only [Bool.or_eq_true, beq_iff_eq, or_assoc]

theorem isSubstr_iff (p : Bytes) : isSubstr p = true ↔ AsksForPart p := by
  unfold isSubstr AsksForPart
  simp only [Bool.or_eq_true, Bool.and_eq_true, decide_eq_true_eq, beq_iff_eq, List.any_eq_true, isSep_iff,
    bne_iff_ne, ne_eq, and_assoc]

theorem run_sep {X s p : Bytes} {c : UInt8} (hX : ∀ x ∈ X, ¬ Sep x) (hc : Sep c) :
    Run (X ++ c :: s) p ↔ (X ≠ [] ∧ p = X) ∨ Run s p := by
  constructor
  · rintro ⟨a, b, he, hp, hps, ha, hb⟩
    rw [List.append_assoc] at he
    rcases List.append_eq_append_iff.mp he with ⟨a', ha', h2⟩ | ⟨d, hd, h2⟩
    · cases a' with
      | nil =>
        rw [List.nil_append] at h2
        cases p with
        | nil => exact absurd rfl hp
        | cons q p =>
          injection h2 with h2 _
          exact absurd hc (by rw [h2]; exact hps q List.mem_cons_self)
      | cons q a'' =>
        injection h2 with h2 h3
        refine Or.inr ⟨a'', b, by rw [h3, List.append_assoc]; rfl, hp, hps, ?_, hb⟩
        intro x hx
        apply ha x
        rw [ha', List.getLast?_append, List.getLast?_cons]
        rw [hx]; rfl
    · have ha0 : a = [] := by
        cases hl : a.getLast? with
        | none => exact List.getLast?_eq_none_iff.mp hl
        | some x =>
          have : x ∈ X := by rw [hd]; exact List.mem_append_left _ (List.mem_of_getLast? hl)
          exact absurd (ha x hl) (hX x this)
      subst ha0
      rw [List.nil_append] at hd
      subst hd
      left
      rcases List.append_eq_append_iff.mp h2 with ⟨e, he1, he2⟩ | ⟨e, he1, he2⟩
      · cases e with
        | nil => rw [List.append_nil] at he1; exact ⟨by rw [he1]; exact hp, he1.symm⟩
        | cons q e =>
          rw [he2] at hb
          have : q ∈ X := by rw [he1]; exact List.mem_append_right _ List.mem_cons_self
          exact absurd (hb q rfl) (hX q this)
      · cases e with
        | nil => rw [List.append_nil] at he1; exact ⟨by rw [← he1]; exact hp, he1⟩
        | cons q e =>
          injection he2 with h3 _
          exact absurd hc (by rw [h3]; exact hps q (by rw [he1]; exact List.mem_append_right _ List.mem_cons_self))
  · rintro (⟨h1, rfl⟩ | ⟨a, b, he, hp, hps, ha, hb⟩)
    · exact ⟨[], c :: s, rfl, h1, hX, (fun _ h => nomatch h), (fun x h => by injection h with h; rw [← h]; exact hc)⟩
    · refine ⟨X ++ c :: a, b, by rw [he]; simp, hp, hps, ?_, hb⟩
      intro x hx
      rw [List.getLast?_append, List.getLast?_cons] at hx
      cases hl : a.getLast? with
      | none =>
        rw [hl] at hx
        injection hx with hx
        rw [← hx]; exact hc
      | some y =>
        rw [hl] at hx
        injection hx with hx
        rw [← hx]; exact ha y hl

theorem run_end {X p : Bytes} (hX : ∀ x ∈ X, ¬ Sep x) : Run X p ↔ (X ≠ [] ∧ p = X) := by
  constructor
  · rintro ⟨a, b, he, hp, hps, ha, hb⟩
    have ha0 : a = [] := by
      cases hl : a.getLast? with
      | none => exact List.getLast?_eq_none_iff.mp hl
      | some x =>
        have : x ∈ X := by
          rw [he, List.append_assoc]; exact List.mem_append_left _ (List.mem_of_getLast? hl)
        exact absurd (ha x hl) (hX x this)
    have hb0 : b = [] := by
      cases b with
      | nil => rfl
      | cons q b => exact absurd (hb q rfl) (hX q (by rw [he]; exact List.mem_append_right _ List.mem_cons_self))
    subst ha0; subst hb0
    rw [List.append_nil, List.nil_append] at he
    exact ⟨by rw [he]; exact hp, he.symm⟩
  · rintro ⟨h, rfl⟩
    exact ⟨[], [], by simp, h, hX, (fun _ h => nomatch h), (fun _ h => nomatch h)⟩

theorem mem_pieces (p : Bytes) : ∀ (s cur : Bytes), (∀ x ∈ cur, ¬ Sep x) →
    (p ∈ pieces cur s ↔ Run (cur.reverse ++ s) p) := by
  have flush : ∀ cur : Bytes, p ∈ (if cur = [] then [] else [cur.reverse]) ↔ (cur.reverse ≠ [] ∧ p = cur.reverse) := by
    intro cur
    by_cases h : cur = []
    · subst h; simp
    · rw [if_neg h, List.mem_singleton]; simp [h]
  have rev : ∀ {cur : Bytes}, (∀ x ∈ cur, ¬ Sep x) → ∀ x ∈ cur.reverse, ¬ Sep x :=
    fun h x hx => h x (List.mem_reverse.mp hx)
  intro s
  induction s with
  | nil =>
    intro cur hcur
    rw [pieces, flush, List.append_nil, run_end (rev hcur)]
  | cons c s ih =>
    intro cur hcur
    rw [pieces]
    by_cases hc : isSep c = true
    · rw [if_pos hc, List.mem_append, flush, ih [] (fun _ h => nomatch h), run_sep (rev hcur) ((isSep_iff c).mp hc)]
      rfl
    · rw [if_neg hc, ih (c :: cur), List.reverse_cons, List.append_assoc]
      · rfl
      · intro x hx
        rcases List.mem_cons.mp hx with rfl | hx
        · exact fun h => hc ((isSep_iff x).mpr h)
        · exact hcur x hx

/-- Blanks in front are removed. -/
theorem dropWhile_spec (s : Bytes) : ∃ a, s = a ++ s.dropWhile isBlank ∧ (∀ x ∈ a, Blank x) ∧
    (∀ x, (s.dropWhile isBlank).head? = some x → ¬ Blank x) := by
  induction s with
  | nil => exact ⟨[], rfl, (fun _ h => nomatch h), (fun _ h => nomatch h)⟩
  | cons c s ih =>
    by_cases hc : isBlank c = true
    · obtain ⟨a, h1, h2, h3⟩ := ih
      rw [List.dropWhile_cons, if_pos hc]
      refine ⟨c :: a, by rw [List.cons_append, ← h1], ?_, h3⟩
      intro x hx
      rcases List.mem_cons.mp hx with rfl | hx
      · exact (isBlank_iff x).mp hc
      · exact h2 x hx
    · rw [List.dropWhile_cons, if_neg hc]
      refine ⟨[], rfl, (fun _ h => nomatch h), ?_⟩
      intro x hx
      injection hx with hx
      rw [← hx]
      exact fun h => hc ((isBlank_iff c).mpr h)

theorem trim_stripped (p : Bytes) : Stripped p (trim p) := by
  obtain ⟨c, h1, h2, h3⟩ := dropWhile_spec p.reverse
  obtain ⟨a, g1, g2, g3⟩ := dropWhile_spec (trimRight p)
  have hp : p = trimRight p ++ c.reverse := by
    have := congrArg List.reverse h1
    rw [List.reverse_reverse, List.reverse_append] at this
    exact this
  refine ⟨a, c.reverse, ?_, g2, ?_, g3, ?_⟩
  · show p = a ++ (trimRight p).dropWhile isBlank ++ c.reverse
    rw [← g1]; exact hp
  · intro x hx; exact h2 x (List.mem_reverse.mp hx)
  · intro x hx
    apply h3 x
    have : (trimRight p).getLast? = some x := by
      rw [g1, List.getLast?_append]
      show Option.or (trim p).getLast? _ = _
      rw [hx]; rfl
    unfold trimRight at this
    rw [List.getLast?_reverse] at this
    exact this

/-- What is left without blanks is determined, if it is not empty. -/
theorem stripped_unique {p v w : Bytes} (hv : Stripped p v) (hw : Stripped p w) (h : w ≠ []) : v = w := by
  obtain ⟨a, c, e1, ha, hc, hf, hl⟩ := hv
  obtain ⟨a', c', e2, ha', hc', hf', hl'⟩ := hw
  -- the text is not blank, so neither is `v` empty
  have hv0 : v ≠ [] := by
    intro h0
    subst h0
    cases w with
    | nil => exact h rfl
    | cons x w =>
      have : x ∈ p := by
        rw [e2]; exact List.mem_append_left _ (List.mem_append_right _ List.mem_cons_self)
      apply hf' x rfl
      rw [e1] at this
      rcases List.mem_append.mp this with h | h
      · rcases List.mem_append.mp h with h | h
        · exact ha x h
        · exact nomatch h
      · exact hc x h
  have key : ∀ {a a' r r' : Bytes}, a ++ r = a' ++ r' → (∀ x ∈ a, Blank x) → (∀ x ∈ a', Blank x) →
      (∃ x, r.head? = some x ∧ ¬ Blank x) → (∃ x, r'.head? = some x ∧ ¬ Blank x) → r = r' := by
    intro a a' r r' he ha ha' ⟨x, hx, hxb⟩ ⟨y, hy, hyb⟩
    rcases List.append_eq_append_iff.mp he with ⟨d, h1, h2⟩ | ⟨d, h1, h2⟩
    · cases d with
      | nil => exact h2
      | cons q d =>
        rw [h2] at hx
        injection hx with hx
        exact absurd (ha' x (by rw [h1, ← hx]; exact List.mem_append_right _ List.mem_cons_self)) hxb
    · cases d with
      | nil => exact h2.symm
      | cons q d =>
        rw [h2] at hy
        injection hy with hy
        exact absurd (ha y (by rw [h1, ← hy]; exact List.mem_append_right _ List.mem_cons_self)) hyb
  have front : ∀ {v c : Bytes}, v ≠ [] → (∀ x, v.head? = some x → ¬ Blank x) → ∃ x, (v ++ c).head? = some x ∧ ¬ Blank x := by
    intro v c h0 hf
    cases v with
    | nil => exact absurd rfl h0
    | cons x v => exact ⟨x, rfl, hf x rfl⟩
  have e3 : v ++ c = w ++ c' :=
    key (a := a) (a' := a') (by rw [← List.append_assoc, ← List.append_assoc, ← e1, e2]) ha ha'
      (front hv0 hf) (front h hf')
  have e4 : c.reverse ++ v.reverse = c'.reverse ++ w.reverse := by
    rw [← List.reverse_append, ← List.reverse_append, e3]
  have back : ∀ {v : Bytes}, v ≠ [] → (∀ x, v.getLast? = some x → ¬ Blank x) → ∃ x, v.reverse.head? = some x ∧ ¬ Blank x := by
    intro v h0 hl
    rw [List.head?_reverse]
    cases hx : v.getLast? with
    | none => exact absurd (List.getLast?_eq_none_iff.mp hx) h0
    | some x => exact ⟨x, rfl, hl x hx⟩
  have := key e4 (fun x hx => hc x (List.mem_reverse.mp hx)) (fun x hx => hc' x (List.mem_reverse.mp hx))
    (back hv0 hl) (back h hl')
  exact List.reverse_inj.mp this

theorem mem_words (s w : Bytes) : w ∈ words s ↔ IsWord s w := by
  unfold words
  rw [List.mem_filter, List.mem_map]
  have hp : ∀ p, p ∈ pieces [] s ↔ Run s p := fun p => mem_pieces p s [] (fun _ h => nomatch h)
  constructor
  · rintro ⟨⟨p, h1, rfl⟩, h2⟩
    exact ⟨p, (hp p).mp h1, trim_stripped p, by intro h; rw [h] at h2; exact nomatch h2⟩
  · rintro ⟨p, h1, h2, h3⟩
    exact ⟨⟨p, (hp p).mpr h1, stripped_unique (trim_stripped p) h2 h3⟩, by cases w with | nil => exact absurd rfl h3 | cons => rfl⟩

/-! Masks with stars at the ends. -/

theorem glob_front (m t : Bytes) : Glob (42 :: m) t ↔ ∃ a b, t = a ++ b ∧ Glob m b :=
  ⟨glob_star_inv, fun ⟨a, b, e, h⟩ => by rw [e]; exact .star m a b h⟩

theorem glob_end (m : Bytes) : ∀ t, Glob (m ++ [42]) t ↔ ∃ a b, t = a ++ b ∧ Glob m a := by
  induction m with
  | nil =>
    intro t
    rw [List.nil_append, glob_front]
    constructor
    · rintro ⟨a, b, e, h⟩; exact ⟨[], t, rfl, .nil⟩
    · rintro ⟨a, b, e, h⟩; exact ⟨t, [], by rw [List.append_nil], .nil⟩
  | cons p m ih =>
    intro t
    constructor
    · intro h
      rcases glob_cons_inv h with ⟨rfl, a, u, e, hu⟩ | ⟨c, u, e, hu, hk⟩
      · obtain ⟨x, y, e2, hx⟩ := (ih u).mp hu
        exact ⟨a ++ x, y, by rw [e, e2, List.append_assoc], .star _ _ _ hx⟩
      · obtain ⟨x, y, e2, hx⟩ := (ih u).mp hu
        refine ⟨c :: x, y, by rw [e, e2]; rfl, ?_⟩
        rcases hk with rfl | ⟨rfl, h1, h2⟩ | ⟨h1, h2⟩
        · exact .any _ _ _ hx
        · exact .digit _ _ _ h1 h2 hx
        · exact .char _ _ _ _ h1 h2 hx
    · rintro ⟨x, y, e, h⟩
      rcases glob_cons_inv h with ⟨rfl, a, u, e2, hu⟩ | ⟨c, u, e2, hu, hk⟩
      · rw [e, e2, List.append_assoc]
        exact .star _ _ _ ((ih _).mpr ⟨u, y, rfl, hu⟩)
      · have hm := (ih (u ++ y)).mpr ⟨u, y, rfl, hu⟩
        rw [e, e2]
        rcases hk with rfl | ⟨rfl, h1, h2⟩ | ⟨h1, h2⟩
        · exact .any _ _ _ hm
        · exact .digit _ _ _ h1 h2 hm
        · exact .char _ _ _ _ h1 h2 hm

theorem substrMask_iff (p t : Bytes) : Glob (substrMask p) t ↔ ∃ a b c, t = a ++ b ++ c ∧ Glob p b := by
  -- a mask which begins (ends) with a star matches every longer text
  have addFront : ∀ {m a b : Bytes}, m.head? = some 42 → Glob m b → Glob m (a ++ b) := by
    intro m a b hm h
    cases m with
    | nil => cases hm
    | cons q m =>
      injection hm with hm
      subst hm
      exact glob_star_suffix ⟨a, rfl⟩ h
  have addEnd : ∀ {m b c : Bytes}, m.getLast? = some 42 → Glob m b → Glob m (b ++ c) := by
    intro m b c hm h
    obtain ⟨m', rfl⟩ := List.getLast?_eq_some_iff.mp hm
    obtain ⟨x, y, e, hx⟩ := (glob_end m' b).mp h
    exact (glob_end m' _).mpr ⟨x, y ++ c, by rw [e, List.append_assoc], hx⟩
  unfold substrMask
  by_cases h1 : 2 ≤ p.length ∧ p.head? = some 42 ∧ p.getLast? = some 42
  · rw [if_pos h1]
    constructor
    · intro h; exact ⟨[], t, [], by simp, h⟩
    · rintro ⟨a, b, c, e, h⟩
      rw [e]
      exact addEnd h1.2.2 (addFront h1.2.1 h)
  · rw [if_neg h1]
    by_cases h2 : 1 ≤ p.length ∧ p.head? = some 42
    · rw [if_pos h2, glob_end]
      constructor
      · rintro ⟨a, b, e, h⟩; exact ⟨[], a, b, e, h⟩
      · rintro ⟨a, b, c, e, h⟩; exact ⟨a ++ b, c, e, addFront h2.2 h⟩
    · rw [if_neg h2]
      by_cases h3 : 1 ≤ p.length ∧ p.getLast? = some 42
      · rw [if_pos h3, glob_front]
        constructor
        · rintro ⟨a, b, e, h⟩; exact ⟨a, b, [], by rw [e, List.append_nil], h⟩
        · rintro ⟨a, b, c, e, h⟩; exact ⟨a, b ++ c, by rw [e, List.append_assoc], addEnd h3.2 h⟩
      · rw [if_neg h3, glob_end]
        constructor
        · rintro ⟨a, b, e, h⟩
          obtain ⟨x, y, e2, hy⟩ := (glob_front p a).mp h
          exact ⟨x, y, b, by rw [e, e2], hy⟩
        · rintro ⟨a, b, c, e, h⟩
          exact ⟨a ++ b, c, e, (glob_front p _).mpr ⟨a, b, rfl, h⟩⟩

/-- **C58.** A condition on a text which asks for a word is met exactly if some word of the text matches
the mask; a condition which asks for a part is met exactly if some part of the text matches it. -/
theorem text_condition (param text : Bytes) :
    (¬ AsksForPart param → (matchText param text = true ↔ ∃ w, IsWord text w ∧ Glob param w)) ∧
    (AsksForPart param → (matchText param text = true ↔ ∃ a b c, text = a ++ b ++ c ∧ Glob param b)) := by
  refine ⟨fun h => ?_, fun h => ?_⟩
  · have : ¬ isSubstr param = true := fun h' => h ((isSubstr_iff _).mp h')
    unfold matchText
    rw [if_neg this, List.any_eq_true]
    constructor
    · rintro ⟨w, h1, h2⟩; exact ⟨w, (mem_words _ _).mp h1, (matches_iff _ _).mp h2⟩
    · rintro ⟨w, h1, h2⟩; exact ⟨w, (mem_words _ _).mpr h1, (matches_iff _ _).mpr h2⟩
  · unfold matchText
    rw [if_pos ((isSubstr_iff _).mpr h), matches_iff, substrMask_iff]

/-- "s0#*" is asked of the words, "web-dl" of the whole text. -/
example : matchText (lit "s0#*") (lit "The.Show.S03E11-WEB-DL [x]") = true ∧
    matchText (lit "s1#*") (lit "The.Show.S03E11-WEB-DL [x]") = false ∧
    matchText (lit "web-dl") (lit "The.Show.S03E11-WEB-DL [x]") = true ∧
    matchText (lit "web") (lit "The.Show.S03E11-WEBDL [x]") = false ∧
    matchText (lit "*web*") (lit "The.Show.S03E11-WEBDL [x]") = true := by decide +kernel

end Verif.FeedFilter
