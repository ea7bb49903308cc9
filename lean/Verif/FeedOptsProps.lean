import Verif.FeedOpts
import Verif.FeedTermProps
import Verif.NzbLogProps
import Verif.SaveConfProps
/-
The reading of feed rules (C143).
-/
namespace Verif.FeedOpts
open CStr Rpc FeedFilter FeedTerm
open OptStore (Same same_iff eqNoCase_congr)

/-! ### Specification -/

/-- How a rule with a command begins: without options. -/
def plain : Command → List String
  | .accept => ["A:", "Accept:"]
  | .reject => ["R:", "Reject:"]
  | .require => ["Q:", "Require:"]
  | _ => []

/-- How a rule with options begins. -/
def bracket : Command → List String
  | .accept => ["A(", "Accept("]
  | .options => ["O(", "Options("]
  | _ => []

/-- What an option asks for. -/
inductive Setting where
  | category (b : Bytes) | pause (b : Bool) | priority (i : Int) | addPriority (i : Int) | score (i : Int) | addScore (i : Int)
  | key (b : Bytes) | addKey (b : Bytes) | mode (m : Mode) | rage (b : Bytes) | tvdb (b : Bytes) | tvmaze (b : Bytes) | series (b : Bytes)

/-- The names under which it may be written, in any case. -/
def Setting.names : Setting → List String
  | .category _ => ["category", "cat", "c"]
  | .pause _ => ["pause", "p"]
  | .priority _ => ["priority", "pr", "r"]
  | .addPriority _ => ["priority+", "pr+", "r+"]
  | .score _ => ["dupescore", "ds", "s"]
  | .addScore _ => ["dupescore+", "ds+", "s+"]
  | .key _ => ["dupekey", "dk", "k"]
  | .addKey _ => ["dupekey+", "dk+", "k+"]
  | .mode _ => ["dupemode", "dm", "m"]
  | .rage _ => ["rageid"]
  | .tvdb _ => ["tvdbid"]
  | .tvmaze _ => ["tvmazeid"]
  | .series _ => ["series"]

/-- The value as it is written. Numbers have 32 bits. -/
def Setting.Value (v : Bytes) : Setting → Prop
  | .pause true => v = [] ∨ Same v (lit "yes") ∨ Same v (lit "y")
  | .pause false => Same v (lit "no") ∨ Same v (lit "n")
  | .priority i => -2147483648 ≤ i ∧ i ≤ 2147483647 ∧ v = decInt i
  | .addPriority i => -2147483648 ≤ i ∧ i ≤ 2147483647 ∧ v = decInt i
  | .score i => -2147483648 ≤ i ∧ i ≤ 2147483647 ∧ v = decInt i
  | .addScore i => -2147483648 ≤ i ∧ i ≤ 2147483647 ∧ v = decInt i
  | .mode .score => Same v (lit "score") ∨ Same v (lit "s")
  | .mode .all => Same v (lit "all") ∨ Same v (lit "a")
  | .mode .force => Same v (lit "force") ∨ Same v (lit "f")
  | .category b => v = b
  | .key b => v = b
  | .addKey b => v = b
  | .rage b => v = b
  | .tvdb b => v = b
  | .tvmaze b => v = b
  | .series b => v = b

/-- The rule with this setting and otherwise as before. -/
def Setting.put : Setting → Opts → Opts
  | .category b, o => { o with category := some b }
  | .pause b, o => { o with pause := some b }
  | .priority i, o => { o with priority := some i }
  | .addPriority i, o => { o with addPriority := some i }
  | .score i, o => { o with score := some i }
  | .addScore i, o => { o with addScore := some i }
  | .key b, o => { o with key := some b }
  | .addKey b, o => { o with addKey := some b }
  | .mode m, o => { o with mode := some m }
  | .rage b, o => { o with rage := some b }
  | .tvdb b, o => { o with tvdb := some b }
  | .tvmaze b, o => { o with tvmaze := some b }
  | .series b, o => { o with series := some b }

/-- An option as it is written: the name, a colon and the value, with blanks before, between and behind. -/
structure Written where
  before : Nat
  name : Bytes
  between : Nat
  value : Bytes
  behind : Nat
  setting : Setting

def Written.text (w : Written) : Bytes :=
  List.replicate w.before 32 ++ w.name ++ 58 :: (List.replicate w.between 32 ++ w.value ++ List.replicate w.behind 32)

/-- The name is one of the names of the setting, and the value is its value; the value contains no comma and no closing bracket, and has no blanks
around it. -/
structure Written.Ok (w : Written) : Prop where
  name : ∃ n ∈ w.setting.names, Same w.name (lit n)
  value : w.setting.Value w.value
  comma : (44 : UInt8) ∉ w.value
  bracket : (41 : UInt8) ∉ w.value
  first : ∀ b, w.value.head? = some b → ¬ Blank b
  last : ∀ b, w.value.getLast? = some b → ¬ Blank b

/-- Options are separated by commas. -/
def joined : List Bytes → Bytes
  | [] => []
  | [t] => t
  | t :: ts => t ++ 44 :: joined ts

/-! ### Blanks -/

theorem blank_false {b : UInt8} (h : ¬ Blank b) : isBlank b = false := by
  rw [← Bool.not_eq_true, isBlank_iff]; exact h

theorem trimRight_solid (l : Bytes) (h : ∀ b, l.getLast? = some b → isBlank b = false) : trimRight l = l := by
  unfold trimRight
  cases hl : l.reverse with
  | nil => rw [List.reverse_eq_nil_iff] at hl; subst hl; rfl
  | cons b r =>
    have : l = r.reverse ++ [b] := by rw [← List.reverse_reverse l, hl, List.reverse_cons]
    have hb := h b (by rw [this, List.getLast?_concat])
    rw [List.dropWhile_cons_of_neg (by rw [hb]; exact Bool.false_ne_true), ← hl, List.reverse_reverse]

theorem dropBlanks (n : Nat) (l : Bytes) : (List.replicate n 32 ++ l).dropWhile isBlank = l.dropWhile isBlank := by
  induction n with
  | zero => rfl
  | succ n ih =>
    rw [List.replicate_succ, List.cons_append, List.dropWhile_cons_of_pos (by decide), ih]

theorem dropSolid (l : Bytes) (h : ∀ b, l.head? = some b → isBlank b = false) : l.dropWhile isBlank = l := by
  cases l with
  | nil => rfl
  | cons b l => rw [List.dropWhile_cons_of_neg (by rw [h b rfl]; exact Bool.false_ne_true)]

theorem blanks_all (n : Nat) : ∀ b ∈ List.replicate n (32 : UInt8), isBlank b = true := by
  intro b hb; rw [List.eq_of_mem_replicate hb]; decide

/-- A trimmed text with blanks around it. -/
theorem trim_around (a c : Nat) (v : Bytes) (h1 : ∀ b, v.head? = some b → isBlank b = false) (h2 : ∀ b, v.getLast? = some b → isBlank b = false) :
    trim (List.replicate a 32 ++ v ++ List.replicate c 32) = v := by
  unfold trim
  rw [NzbLog.trimRight_blanks _ _ (blanks_all c)]
  cases v with
  | nil =>
    have := NzbLog.trimRight_blanks (List.replicate a 32) [] (blanks_all a)
    rw [List.nil_append] at this
    rw [List.append_nil, this]
    rfl
  | cons x v =>
    rw [trimRight_solid, dropBlanks, dropSolid _ h1]
    intro b hb
    refine h2 b ?_
    rw [List.getLast?_append] at hb
    simpa using hb

theorem trimRight_again (l : Bytes) : trimRight (trimRight l) = trimRight l := by
  refine trimRight_solid _ ?_
  intro b hb
  unfold trimRight at hb
  rw [List.getLast?_reverse] at hb
  have := List.head?_dropWhile_not isBlank l.reverse
  rw [hb] at this
  simpa using this

/-! ### Single options -/

theorem kinds_names : ∀ e ∈ kinds, kinds.find? (fun x => eqNoCase (lit e.1) (lit x.1)) = some e ∧ (58 : UInt8) ∉ lit e.1 ∧ (44 : UInt8) ∉ lit e.1 ∧
    (41 : UInt8) ∉ lit e.1 ∧ (∀ b ∈ ([10, 13, 32, 9] : Bytes), b ∉ lit e.1) ∧ lit e.1 ≠ [] := by decide +kernel

def Setting.kind : Setting → Kind
  | .category _ => .category | .pause _ => .pause | .priority _ => .priority | .addPriority _ => .addPriority | .score _ => .score
  | .addScore _ => .addScore | .key _ => .key | .addKey _ => .addKey | .mode _ => .mode | .rage _ => .rage | .tvdb _ => .tvdb
  | .tvmaze _ => .tvmaze | .series _ => .series

theorem setting_kind (x : Setting) {n : String} (hn : n ∈ x.names) : (n, x.kind) ∈ kinds := by
  cases x <;> simp only [Setting.names, List.mem_cons, List.not_mem_nil, or_false] at hn <;> simp only [Setting.kind] <;>
    (try rcases hn with q | q | q) <;> (try rcases hn with q | q) <;> (try subst q) <;> (try subst hn) <;> decide +kernel

theorem intOf_written {i : Int} (h1 : -2147483648 ≤ i) (h2 : i ≤ 2147483647) : OptStore.intOf (decInt i) = i := by
  have := RpcParam.intOf_decInt i h1 h2 [] (by simp)
  rwa [List.append_nil] at this

theorem numStart_int (i : Int) : numStart (decInt i) = true := by
  cases h : decInt i with
  | nil => rfl
  | cons b l =>
    have := decInt_chars i b (by rw [h]; exact List.mem_cons_self)
    unfold numStart
    rcases this with q | q <;> simp [q]

theorem setKind_put (x : Setting) (v : Bytes) (h : x.Value v) (o : Opts) : setKind x.kind v o = some (x.put o) := by
  cases x with
  | pause b =>
    cases b with
    | true =>
      have : v = [] ∨ eqNoCase v (lit "yes") = true ∨ eqNoCase v (lit "y") = true := by
        simp only [same_iff]; exact h
      show (if _ then _ else _) = _
      rw [if_pos this]; rfl
    | false =>
      have h' : eqNoCase v (lit "no") = true ∨ eqNoCase v (lit "n") = true := by simp only [same_iff]; exact h
      have hn : ¬ (v = [] ∨ eqNoCase v (lit "yes") = true ∨ eqNoCase v (lit "y") = true) := by
        simp only [same_iff]
        have d : ∀ a ∈ [lit "no", lit "n"], ∀ b ∈ [[], lit "yes", lit "y"], ¬ Same a b := by decide +kernel
        have key : ∀ a ∈ [lit "no", lit "n"], Same v a → ¬ (v = [] ∨ Same v (lit "yes") ∨ Same v (lit "y")) := by
          intro a ha hs q
          rcases q with q | q | q
          · exact d a ha [] (by simp) (hs.symm.trans (by rw [q]; rfl))
          · exact d a ha _ (by simp) (hs.symm.trans q)
          · exact d a ha _ (by simp) (hs.symm.trans q)
        rcases h with g | g
        · exact key _ (by simp) g
        · exact key _ (by simp) g
      show (if _ then _ else _) = _
      rw [if_neg hn, if_pos h']; rfl
  | mode m =>
    have d : ∀ a ∈ [lit "score", lit "s"], ∀ b ∈ [lit "all", lit "a", lit "force", lit "f"], ¬ Same b a := by decide +kernel
    have d2 : ∀ a ∈ [lit "all", lit "a"], ∀ b ∈ [lit "force", lit "f"], ¬ Same b a := by decide +kernel
    cases m with
    | score =>
      have : eqNoCase v (lit "score") = true ∨ eqNoCase v (lit "s") = true := by simp only [same_iff]; exact h
      show (if _ then _ else _) = _
      rw [if_pos this]; rfl
    | all =>
      have h' : eqNoCase v (lit "all") = true ∨ eqNoCase v (lit "a") = true := by simp only [same_iff]; exact h
      have hn : ¬ (eqNoCase v (lit "score") = true ∨ eqNoCase v (lit "s") = true) := by
        simp only [same_iff]
        rintro (q | q) <;> rcases h with g | g <;> exact d _ (by simp) _ (by simp) (OptStore.Same.trans (OptStore.Same.symm g) q)
      show (if _ then _ else _) = _
      rw [if_neg hn, if_pos h']; rfl
    | force =>
      have h' : eqNoCase v (lit "force") = true ∨ eqNoCase v (lit "f") = true := by simp only [same_iff]; exact h
      have hn : ¬ (eqNoCase v (lit "score") = true ∨ eqNoCase v (lit "s") = true) := by
        simp only [same_iff]
        rintro (q | q) <;> rcases h with g | g <;> exact d _ (by simp) _ (by simp) (OptStore.Same.trans (OptStore.Same.symm g) q)
      have hn2 : ¬ (eqNoCase v (lit "all") = true ∨ eqNoCase v (lit "a") = true) := by
        simp only [same_iff]
        rintro (q | q) <;> rcases h with g | g <;> exact d2 _ (by simp) _ (by simp) (OptStore.Same.trans (OptStore.Same.symm g) q)
      show (if _ then _ else _) = _
      rw [if_neg hn, if_neg hn2, if_pos h']; rfl
  | priority i =>
    obtain ⟨h1, h2, rfl⟩ := h
    show (if _ then _ else _) = _
    rw [if_pos (numStart_int i), intOf_written h1 h2]; rfl
  | addPriority i =>
    obtain ⟨h1, h2, rfl⟩ := h
    show (if _ then _ else _) = _
    rw [if_pos (numStart_int i), intOf_written h1 h2]; rfl
  | score i =>
    obtain ⟨h1, h2, rfl⟩ := h
    show (if _ then _ else _) = _
    rw [if_pos (numStart_int i), intOf_written h1 h2]; rfl
  | addScore i =>
    obtain ⟨h1, h2, rfl⟩ := h
    show (if _ then _ else _) = _
    rw [if_pos (numStart_int i), intOf_written h1 h2]; rfl
  | category b => cases h; rfl
  | key b => cases h; rfl
  | addKey b => cases h; rfl
  | rage b => cases h; rfl
  | tvdb b => cases h; rfl
  | tvmaze b => cases h; rfl
  | series b => cases h; rfl

theorem find_same {a b : Bytes} (h : Same a b) {e : String × Kind} (hf : kinds.find? (fun x => eqNoCase b (lit x.1)) = some e) :
    kinds.find? (fun x => eqNoCase a (lit x.1)) = some e := by
  have : (fun x : String × Kind => eqNoCase a (lit x.1)) = fun x => eqNoCase b (lit x.1) := funext fun x => eqNoCase_congr h _
  rw [this]; exact hf

theorem setOption_written (w : Written) (h : w.Ok) (o : Opts) : setOption (trim w.text) o = some (w.setting.put o) ∧ trim w.text ≠ [] := by
  obtain ⟨n, hn, hs⟩ := h.name
  obtain ⟨k1, k2, k3, k4, k5, k6⟩ := kinds_names _ (setting_kind _ hn)
  have hc : (58 : UInt8) ∉ w.name := fun g => k2 (same_mem hs (by decide) (by decide) g)
  have hbl : ∀ b ∈ w.name, isBlank b = false := by
    intro b hb
    refine blank_false ?_
    rintro (q | q | q | q) <;> subst q
    · exact k5 _ (by simp) (same_mem hs (by decide) (by decide) hb)
    · exact k5 _ (by simp) (same_mem hs (by decide) (by decide) hb)
    · exact k5 _ (by simp) (same_mem hs (by decide) (by decide) hb)
    · exact k5 _ (by simp) (same_mem hs (by decide) (by decide) hb)
  have hne : w.name ≠ [] := fun g => k6 ((same_nil hs).1 g)
  have ht : ∃ r, trim w.text = w.name ++ 58 :: r ∧ trim r = w.value := by
    refine ⟨trimRight (List.replicate w.between 32 ++ w.value ++ List.replicate w.behind 32), ?_, ?_⟩
    · unfold trim Written.text
      have e1 : trimRight (58 :: (List.replicate w.between 32 ++ w.value ++ List.replicate w.behind 32)) =
          58 :: trimRight (List.replicate w.between 32 ++ w.value ++ List.replicate w.behind 32) := by
        generalize List.replicate w.between 32 ++ w.value ++ List.replicate w.behind 32 = x
        by_cases hx : trimRight x = []
        · rw [hx]
          have hall : ∀ b ∈ x, isBlank b = true := by
            intro b hb
            cases hq : isBlank b with
            | true => rfl
            | false =>
              have := SaveConf.mem_trimRight x b hq hb
              rw [hx] at this; exact nomatch this
          have := NzbLog.trimRight_blanks x [58] hall
          rw [show ([58] : Bytes) ++ x = 58 :: x from rfl] at this
          rw [this]; decide
        · exact NzbLog.trimRight_append [58] x hx
      rw [NzbLog.trimRight_append _ _ (by rw [e1]; exact List.cons_ne_nil _ _), e1, List.append_assoc, dropBlanks, dropSolid]
      intro b hb
      cases hw : w.name with
      | nil => exact absurd hw hne
      | cons x l =>
        rw [hw] at hb
        have : x = b := by simpa using hb
        exact hbl b (by rw [hw, this]; exact List.mem_cons_self)
    · unfold trim
      rw [trimRight_again]
      exact trim_around w.between w.behind w.value (fun b hb => blank_false (h.first b hb)) (fun b hb => blank_false (h.last b hb))
  obtain ⟨r, e1, e2⟩ := ht
  refine ⟨?_, by rw [e1]; simp⟩
  unfold setOption
  rw [e1, cutAt_first r hc]
  dsimp only
  rw [find_same hs k1, e2]
  exact setKind_put _ _ h.value o

/-! ### The list of options -/

theorem pieces_word (t : Bytes) (ht : (44 : UInt8) ∉ t) : ∀ (cur s : Bytes), Tokens.pieces (· == 44) cur (t ++ s) = Tokens.pieces (· == 44) (t.reverse ++ cur) s := by
  induction t with
  | nil => intro cur s; rfl
  | cons c t ih =>
    intro cur s
    have hc : (c == 44) = false := by
      rw [beq_eq_false_iff_ne]; exact fun h => ht (by rw [h]; exact List.mem_cons_self)
    rw [List.cons_append, Tokens.pieces]
    simp only [hc, Bool.false_eq_true, if_false]
    rw [ih (fun h => ht (List.mem_cons_of_mem _ h)), List.reverse_cons, List.append_assoc]
    rfl

theorem pieces_joined : ∀ (ts : List Bytes), (∀ t ∈ ts, t ≠ [] ∧ (44 : UInt8) ∉ t) → Tokens.pieces (· == 44) [] (joined ts) = ts
  | [], _ => rfl
  | [t], h => by
    obtain ⟨h1, h2⟩ := h t List.mem_cons_self
    have := pieces_word t h2 [] []
    rw [List.append_nil, List.append_nil] at this
    show Tokens.pieces _ [] t = _
    rw [this, Tokens.pieces, if_neg (by simpa using h1), List.reverse_reverse]
  | t :: u :: ts, h => by
    obtain ⟨h1, h2⟩ := h t List.mem_cons_self
    show Tokens.pieces _ [] (t ++ 44 :: joined (u :: ts)) = _
    rw [pieces_word t h2, List.append_nil, Tokens.pieces]
    simp only [beq_self_eq_true, if_true]
    rw [if_neg (by simpa using h1), List.reverse_reverse, pieces_joined (u :: ts) (fun x hx => h x (List.mem_cons_of_mem _ hx))]
    rfl

theorem text_chars (w : Written) (h : w.Ok) {c : UInt8} (hc : c = 44 ∨ c = 41) : c ∉ w.text := by
  obtain ⟨n, hn, hs⟩ := h.name
  obtain ⟨k1, k2, k3, k4, k5, k6⟩ := kinds_names _ (setting_kind _ hn)
  unfold Written.text
  intro g
  simp only [List.mem_append, List.mem_cons] at g
  rcases g with (g | g) | g | (g | g) | g
  · have := List.eq_of_mem_replicate g
    rcases hc with q | q <;> rw [q] at this <;> exact absurd this (by decide)
  · rcases hc with q | q <;> subst q
    · exact k3 (same_mem hs (by decide) (by decide) g)
    · exact k4 (same_mem hs (by decide) (by decide) g)
  · rcases hc with q | q <;> rw [q] at g <;> exact absurd g (by decide)
  · have := List.eq_of_mem_replicate g
    rcases hc with q | q <;> rw [q] at this <;> exact absurd this (by decide)
  · rcases hc with q | q <;> subst q
    · exact h.comma g
    · exact h.bracket g
  · have := List.eq_of_mem_replicate g
    rcases hc with q | q <;> rw [q] at this <;> exact absurd this (by decide)

theorem joined_chars : ∀ (ts : List Bytes), (∀ t ∈ ts, (41 : UInt8) ∉ t) → (41 : UInt8) ∉ joined ts
  | [], _ => nofun
  | [t], h => h t List.mem_cons_self
  | t :: u :: ts, h => by
    show _ ∉ t ++ 44 :: joined (u :: ts)
    intro g
    rcases List.mem_append.1 g with g | g
    · exact h t List.mem_cons_self g
    · rcases List.mem_cons.1 g with g | g
      · exact absurd g (by decide)
      · exact joined_chars (u :: ts) (fun x hx => h x (List.mem_cons_of_mem _ hx)) g

/-- The settings in the order in which they are written: a later one replaces an earlier one of the same kind. -/
def all (ws : List Written) (o : Opts) : Opts := ws.foldl (fun o w => w.setting.put o) o

theorem setOptions_written : ∀ (ws : List Written), (∀ w ∈ ws, w.Ok) → ∀ o, setOptions (ws.map (fun w => trim w.text)) o = some (all ws o)
  | [], _, _ => rfl
  | w :: ws, h, o => by
    rw [List.map_cons, setOptions, (setOption_written w (h w List.mem_cons_self) o).1, Option.bind_some,
      setOptions_written ws (fun x hx => h x (List.mem_cons_of_mem _ hx))]
    rfl

/-- The options between the brackets are read as they are written. -/
theorem options_read (ws : List Written) (h : ∀ w ∈ ws, w.Ok) (rest : Bytes) :
    readOptions (joined (ws.map Written.text) ++ 41 :: rest) = some (all ws {}, if rest.head? = some 58 then rest.tail else rest) := by
  unfold readOptions
  rw [cutAt_first rest (joined_chars _ (by
    intro t ht; obtain ⟨w, hw, rfl⟩ := List.mem_map.1 ht; exact text_chars w (h w hw) (.inr rfl)))]
  dsimp only
  have : Tokens.tokens (· == 44) (joined (ws.map Written.text)) = ws.map (fun w => trim w.text) := by
    unfold Tokens.tokens
    rw [pieces_joined, List.map_map, List.filter_eq_self.2]
    · rfl
    · intro t ht
      obtain ⟨w, hw, rfl⟩ := List.mem_map.1 ht
      have := (setOption_written w (h w hw) {}).2
      simpa using this
    · intro t ht
      obtain ⟨w, hw, rfl⟩ := List.mem_map.1 ht
      refine ⟨?_, text_chars w (h w hw) (.inl rfl)⟩
      unfold Written.text; simp
  rw [this, setOptions_written ws h]
  rfl

/-! ### The command -/

theorem find_only {α : Type} (q : α → Bool) {e : α} : ∀ {l : List α}, e ∈ l → q e = true → (∀ x ∈ l, q x = true → x = e) → l.find? q = some e
  | x :: l, hm, he, hu => by
    rw [List.find?_cons]
    cases hq : q x with
    | true => rw [hu x List.mem_cons_self hq]
    | false =>
      refine find_only q ?_ he (fun y hy => hu y (List.mem_cons_of_mem _ hy))
      rcases List.mem_cons.1 hm with g | g
      · rw [← g, he] at hq; exact nomatch hq
      · exact g

theorem commands_differ : ∀ e ∈ commands, ∀ x ∈ commands, x ≠ e →
    ((lit e.1).map WildMask.lower).take (min (lit e.1).length (lit x.1).length) ≠ ((lit x.1).map WildMask.lower).take (min (lit e.1).length (lit x.1).length) := by
  decide +kernel

theorem find_command {e : String × Command} (he : e ∈ commands) {p : Bytes} (hp : Same p (lit e.1)) (s : Bytes) :
    commands.find? (fun x => eqNoCase ((p ++ s).take (lit x.1).length) (lit x.1)) = some e := by
  have hl : p.length = (lit e.1).length := by
    have := congrArg List.length hp; simpa using this
  refine find_only _ he ?_ ?_
  · rw [same_iff, ← hl, List.take_left]; exact hp
  · intro x hx hq
    rw [same_iff] at hq
    apply Classical.byContradiction
    intro hne
    refine commands_differ e he x hx hne ?_
    have h1 : (p ++ s).map WildMask.lower = (lit e.1).map WildMask.lower ++ s.map WildMask.lower := by
      rw [List.map_append, show p.map WildMask.lower = _ from hp]
    have h2 : ((p ++ s).map WildMask.lower).take (lit x.1).length = (lit x.1).map WildMask.lower := by
      rw [← List.map_take]; exact hq
    rw [h1] at h2
    have h3 := congrArg (List.take (min (lit e.1).length (lit x.1).length)) h2
    rw [List.take_take, show min (min (lit e.1).length (lit x.1).length) (lit x.1).length = min (lit e.1).length (lit x.1).length by omega,
      List.take_append_of_le_length (by rw [List.length_map]; omega)] at h3
    exact h3

/-! ### Whole rules -/

/-- The conditions of the rule: tokens without blanks. -/
def Tokens (ts : List Bytes) : Prop := ∀ t ∈ ts, t ≠ [] ∧ ∀ b ∈ t, ¬ Blank b

theorem spaced_ends {ts : List Bytes} {s : Bytes} (h : Spaced ts s) (ht : Tokens ts) :
    s ≠ [] ∧ (∀ b, s.head? = some b → isBlank b = false) ∧ (∀ b, s.getLast? = some b → isBlank b = false) := by
  induction h with
  | last t =>
    obtain ⟨h1, h2⟩ := ht t List.mem_cons_self
    exact ⟨h1, fun b hb => blank_false (h2 b (List.mem_of_mem_head? hb)), fun b hb => blank_false (h2 b (List.mem_of_mem_getLast? hb))⟩
  | cons t ts s n hs ih =>
    obtain ⟨i1, i2, i3⟩ := ih (fun x hx => ht x (List.mem_cons_of_mem _ hx))
    obtain ⟨h1, h2⟩ := ht t List.mem_cons_self
    refine ⟨by simp [h1], ?_, ?_⟩
    · intro b hb
      cases t with
      | nil => exact absurd rfl h1
      | cons x t =>
        have : x = b := by simpa using hb
        exact blank_false (h2 b (by rw [this]; exact List.mem_cons_self))
    · intro b hb
      rw [List.getLast?_append] at hb
      cases hl : s.getLast? with
      | none => rw [List.getLast?_eq_none_iff] at hl; exact absurd hl i1
      | some y => rw [hl] at hb; exact i3 b (by rw [hl]; simpa using hb)

theorem split_expr {ts : List Bytes} {s : Bytes} (h : Spaced ts s) (ht : Tokens ts) (m : Nat) :
    splitTerms [] (trim (List.replicate m 32 ++ s)) = ts := by
  obtain ⟨h1, h2, h3⟩ := spaced_ends h ht
  have := trim_around m 0 s h2 h3
  rw [List.replicate_zero, List.append_nil] at this
  rw [this]
  refine splitTerms_spaced h (fun t hq => ⟨(ht t hq).1, fun g => (ht t hq).2 32 g ?_⟩)
  exact .inr (.inr (.inl rfl))

theorem commands_ends : ∀ e ∈ commands, lit e.1 ≠ [] ∧ e.2 ≠ .comment ∧ ∀ c ∈ ([10, 13, 32, 9] : Bytes), (lit e.1).head? ≠ some c := by decide +kernel

/-- The text of a rule with blanks around it. -/
theorem trim_rule {e : String × Command} (he : e ∈ commands) {p : Bytes} (hp : Same p (lit e.1)) (x : Bytes) {ts : List Bytes} {s : Bytes} (h : Spaced ts s)
    (ht : Tokens ts) (a c : Nat) : trim (List.replicate a 32 ++ (p ++ (x ++ s)) ++ List.replicate c 32) = p ++ (x ++ s) := by
  obtain ⟨c1, _, c2⟩ := commands_ends e he
  obtain ⟨h1, h2, h3⟩ := spaced_ends h ht
  refine trim_around a c _ ?_ ?_
  · intro b hb
    cases hq : isBlank b with
    | false => rfl
    | true =>
      have hpn : p ≠ [] := fun g => c1 ((same_nil hp).1 g)
      have hph : p.head? = some b := by
        cases p with
        | nil => exact absurd rfl hpn
        | cons y p => simpa using hb
      rw [isBlank_iff] at hq
      rcases hq with q | q | q | q <;> subst q <;> exact absurd (same_head hp (by decide) (by decide) hph) (c2 _ (by simp))
  · intro b hb
    rw [← List.append_assoc, List.getLast?_append] at hb
    cases hl : s.getLast? with
    | none => rw [List.getLast?_eq_none_iff] at hl; exact absurd hl h1
    | some y => rw [hl] at hb; exact h3 b (by rw [hl]; simpa using hb)

/-- C143: a rule with options: `Accept(` or `Options(`, or their first letters, in any case, the options separated by commas, the closing bracket, perhaps a
colon, and the conditions separated by blanks. The rule has this command, these options and these conditions, and is valid exactly if every condition is. -/
theorem rule_with_options (n : Num) (k : Command) (v : String) (hv : v ∈ bracket k) (p : Bytes) (hp : Same p (lit v))
    (ws : List Written) (hw : ∀ w ∈ ws, w.Ok) (colon : Bool) (m a c : Nat) (ts : List Bytes) (s : Bytes) (h : Spaced ts s) (ht : Tokens ts)
    (h58 : colon = false → m = 0 → s.head? ≠ some 58) :
    readRule n (List.replicate a 32 ++ (p ++ ((joined (ws.map Written.text) ++ 41 :: (if colon then [58] else []) ++ List.replicate m 32) ++ s)) ++
        List.replicate c 32) =
      ⟨ts.all (okTerm n), k, ts.map FeedExpr.compileTerm, all ws {}⟩ := by
  have hx : (v, k) ∈ commands ∧ (lit v).getLast? = some 40 := by
    cases k <;> simp only [bracket, List.mem_cons, List.not_mem_nil, or_false] at hv <;> rcases hv with rfl | rfl <;> decide +kernel
  obtain ⟨he, hb⟩ := hx
  generalize hee : (v, k) = e at he
  obtain rfl : e.1 = v := by rw [← hee]
  obtain rfl : e.2 = k := by rw [← hee]
  unfold readRule
  rw [trim_rule he hp _ h ht]
  have hl : p.length = (lit e.1).length := by
    have := congrArg List.length hp; simpa using this
  have hr : readCommand (p ++ ((joined (ws.map Written.text) ++ 41 :: (if colon then [58] else []) ++ List.replicate m 32) ++ s)) =
      some (e.2, all ws {}, List.replicate m 32 ++ s) := by
    unfold readCommand
    rw [find_command he hp]
    dsimp only
    rw [if_pos hb, ← hl, List.drop_left]
    have e1 : (joined (ws.map Written.text) ++ 41 :: (if colon then [58] else []) ++ List.replicate m 32) ++ s =
        joined (ws.map Written.text) ++ 41 :: ((if colon then [58] else []) ++ (List.replicate m 32 ++ s)) := by simp
    rw [e1, options_read ws hw]
    cases colon with
    | true => simp
    | false =>
      have : ¬ (List.replicate m 32 ++ s).head? = some (58 : UInt8) := by
        cases m with
        | zero => simpa using h58 rfl rfl
        | succ m => simp [List.replicate_succ]
      simp only [Bool.false_eq_true, if_false, List.nil_append, Option.map_some]
      rw [if_neg this]
  rw [hr]
  have hc := (commands_ends e he).2.1
  obtain ⟨e1, e2⟩ := e
  cases e2 <;> first | exact absurd rfl hc | (dsimp only; rw [split_expr h ht])

/-- C143: a rule without options: `Accept:`, `Reject:`, `Require:` or their letters `A`, `R` and `Q`, in any case. -/
theorem rule_plain (n : Num) (k : Command) (v : String) (hv : v ∈ plain k) (p : Bytes) (hp : Same p (lit v))
    (m a c : Nat) (ts : List Bytes) (s : Bytes) (h : Spaced ts s) (ht : Tokens ts) :
    readRule n (List.replicate a 32 ++ (p ++ (List.replicate m 32 ++ s)) ++ List.replicate c 32) =
      ⟨ts.all (okTerm n), k, ts.map FeedExpr.compileTerm, {}⟩ := by
  have hx : (v, k) ∈ commands ∧ (lit v).getLast? ≠ some 40 := by
    cases k <;> simp only [plain, List.mem_cons, List.not_mem_nil, or_false] at hv <;> rcases hv with rfl | rfl <;> decide +kernel
  obtain ⟨he, hb⟩ := hx
  generalize hee : (v, k) = e at he
  obtain rfl : e.1 = v := by rw [← hee]
  obtain rfl : e.2 = k := by rw [← hee]
  unfold readRule
  rw [trim_rule he hp _ h ht]
  have hl : p.length = (lit e.1).length := by
    have := congrArg List.length hp; simpa using this
  have hr : readCommand (p ++ (List.replicate m 32 ++ s)) = some (e.2, {}, List.replicate m 32 ++ s) := by
    unfold readCommand
    rw [find_command he hp]
    dsimp only
    rw [if_neg hb, ← hl, List.drop_left]
  rw [hr]
  have hc := (commands_ends e he).2.1
  obtain ⟨e1, e2⟩ := e
  cases e2 <;> first | exact absurd rfl hc | (dsimp only; rw [split_expr h ht])

/-- C143: a rule which begins with no command and not with `#` accepts. -/
theorem rule_bare (n : Num) (a c : Nat) (ts : List Bytes) (s : Bytes) (h : Spaced ts s) (ht : Tokens ts)
    (hc : ∀ k, ∀ v ∈ plain k ++ bracket k, ¬ Same (s.take (lit v).length) (lit v)) (h35 : s.head? ≠ some 35) :
    readRule n (List.replicate a 32 ++ s ++ List.replicate c 32) = ⟨ts.all (okTerm n), .accept, ts.map FeedExpr.compileTerm, {}⟩ := by
  obtain ⟨h1, h2, h3⟩ := spaced_ends h ht
  unfold readRule
  rw [trim_around a c s h2 h3]
  have hm : ∀ e ∈ commands, e.1 ∈ plain e.2 ++ bracket e.2 := by decide +kernel
  have hr : readCommand s = some (.accept, {}, s) := by
    unfold readCommand
    rw [List.find?_eq_none.2 (fun e he => by rw [same_iff]; exact hc e.2 e.1 (hm e he))]
    dsimp only
    rw [if_neg h35]
  rw [hr]
  dsimp only
  have := split_expr h ht 0
  rw [List.replicate_zero, List.nil_append] at this
  rw [this]

/-- The parts of an expression which are no conditions; a sign before them is allowed. -/
def marks : List Bytes := [lit "(", lit "+(", lit "-(", lit ")", lit "+)", lit "-)", lit "|", lit "+|", lit "-|"]

/-- C143: a rule is valid exactly if each of its parts is a bracket, a bar or a condition which can be read; which can be read is said by C142. -/
theorem parts_valid (n : Num) (t : Bytes) : okTerm n t = true ↔ t ∈ marks ∨ ∃ c, FeedTerm.compile n t = some c := by
  constructor
  · intro h
    unfold okTerm at h
    unfold FeedTerm.compile
    cases hc : FeedExpr.compileTerm t with
    | cond positive body =>
      rw [hc] at h
      exact .inr (Option.isSome_iff_exists.1 h)
    | _ =>
      left
      have key : ∀ b : UInt8, (if t.head? = some 45 ∨ t.head? = some 43 then t.tail else t) = [b] → t = [b] ∨ t = [43, b] ∨ t = [45, b] := by
        intro b hb
        split at hb
        · rename_i hs
          cases t with
          | nil => rcases hs with hs | hs <;> exact nomatch hs
          | cons x l =>
            rw [List.tail_cons] at hb
            subst hb
            rcases hs with hs | hs <;> simp only [List.head?_cons, Option.some.injEq] at hs <;> subst hs
            · exact .inr (.inr rfl)
            · exact .inr (.inl rfl)
        · exact .inl hb
      unfold FeedExpr.compileTerm at hc
      dsimp only at hc
      generalize (if t.head? = some 45 ∨ t.head? = some 43 then t.tail else t) = q at key hc
      split at hc
      · rename_i g; rcases key _ g with g | g | g <;> rw [g] <;> decide +kernel
      · split at hc
        · rename_i g; rcases key _ g with g | g | g <;> rw [g] <;> decide +kernel
        · split at hc
          · rename_i g; rcases key _ g with g | g | g <;> rw [g] <;> decide +kernel
          · exact nomatch hc
  · rintro (h | ⟨c, h⟩)
    · have hm : ∀ t ∈ marks, FeedExpr.compileTerm t = .lp ∨ FeedExpr.compileTerm t = .rp ∨ FeedExpr.compileTerm t = .bar := by decide +kernel
      unfold okTerm
      rcases hm t h with e | e | e <;> rw [e]
    · unfold FeedTerm.compile at h
      unfold okTerm
      cases hc : FeedExpr.compileTerm t with
      | cond positive body => rw [hc] at h; dsimp only at h ⊢; rw [h]; rfl
      | _ => rfl

/-- C143: the rules of a filter are separated by `%`. -/
theorem rules_separated (n : Num) (r : Bytes) (hr : (37 : UInt8) ∉ r) (s : Bytes) : readFilter n (r ++ 37 :: s) = readRule n r :: readFilter n s := by
  have key : ∀ (r cur : Bytes), (37 : UInt8) ∉ r → splitRules cur (r ++ 37 :: s) = (cur.reverse ++ r) :: splitRules [] s := by
    intro r
    induction r with
    | nil => intro cur _; rw [List.nil_append, splitRules, if_pos rfl, List.append_nil]
    | cons x r ih =>
      intro cur hx
      rw [List.cons_append, splitRules, if_neg (fun g => hx (by rw [g]; exact List.mem_cons_self)), ih _ (fun g => hx (List.mem_cons_of_mem _ g))]
      simp
  unfold readFilter
  rw [key r [] hr]
  rfl

/-! ### What goes wrong -/

/-- C143, refuted: an option with a name which does not exist is no error: the name becomes the category and the value is lost. -/
theorem unknown_option (name v : Bytes) (hc : (58 : UInt8) ∉ name) (hk : ∀ e ∈ kinds, ¬ Same name (lit e.1))
    (hp : ¬ Same name (lit "paused")) (hu : ¬ Same name (lit "unpaused")) (hn : numStart name = false) (o : Opts) :
    setOption (name ++ 58 :: v) o = some { o with category := some name } := by
  unfold setOption
  rw [cutAt_first v hc]
  dsimp only
  rw [List.find?_eq_none.2 (fun e he => by rw [same_iff]; exact hk e he)]
  dsimp only
  unfold setOld
  rw [if_neg (by rw [same_iff, same_iff]; exact fun q => q.elim hp hu), if_neg (by rw [hn]; exact Bool.false_ne_true)]

/-- C143, refuted: a priority or a score without a number is no error: it is 0. -/
theorem missing_number (o : Opts) : setOption (lit "priority") o = some { o with priority := some 0 } ∧
    setOption (lit "priority:") o = some { o with priority := some 0 } ∧ setOption (lit "dupescore:") o = some { o with score := some 0 } := by
  have e1 : cutAt 58 (lit "priority") = none := by decide +kernel
  have e2 : cutAt 58 (lit "priority:") = some (lit "priority", []) := by decide +kernel
  have e3 : cutAt 58 (lit "dupescore:") = some (lit "dupescore", []) := by decide +kernel
  have f1 : kinds.find? (fun e => eqNoCase (lit "priority") (lit e.1)) = some ("priority", .priority) := by decide +kernel
  have f2 : kinds.find? (fun e => eqNoCase (lit "dupescore") (lit e.1)) = some ("dupescore", .score) := by decide +kernel
  have z : OptStore.intOf [] = 0 := by decide +kernel
  have t : trim [] = [] := by decide +kernel
  refine ⟨?_, ?_, ?_⟩
  · unfold setOption; rw [e1]; dsimp only; rw [f1]
    show (if numStart [] then some { o with priority := some (OptStore.intOf []) } else none) = _
    rw [if_pos (show numStart [] = true from rfl), z]
  · unfold setOption; rw [e2]; dsimp only; rw [f1, t]
    show (if numStart [] then some { o with priority := some (OptStore.intOf []) } else none) = _
    rw [if_pos (show numStart [] = true from rfl), z]
  · unfold setOption; rw [e3]; dsimp only; rw [f2, t]
    show (if numStart [] then some { o with score := some (OptStore.intOf []) } else none) = _
    rw [if_pos (show numStart [] = true from rfl), z]

/-- C143, refuted: a reject rule written with brackets is a rule which accepts: `Reject(x)` is read as a condition about the title. -/
theorem reject_accepts (n : Num) (ts : List Bytes) (s : Bytes) (h : Spaced ts s) (ht : Tokens ts) (hs : lit "Reject(" <+: s) :
    (readRule n s).command = .accept := by
  have := rule_bare n 0 0 ts s h ht ?_ ?_
  · simp only [List.replicate_zero, List.nil_append, List.append_nil] at this
    rw [this]
  · obtain ⟨y, rfl⟩ := hs
    intro k v hv q
    have hd : ∀ e ∈ commands, ((lit "Reject(").map WildMask.lower).take (min 7 (lit e.1).length) ≠ ((lit e.1).map WildMask.lower).take (min 7 (lit e.1).length) := by
      decide +kernel
    have he : (v, k) ∈ commands := by
      cases k <;> simp only [plain, bracket, List.cons_append, List.nil_append, List.append_nil, List.mem_cons, List.not_mem_nil, or_false] at hv <;>
        first
        | (rcases hv with rfl | rfl | rfl | rfl <;> decide +kernel)
        | (rcases hv with rfl | rfl <;> decide +kernel)
    refine hd (v, k) he ?_
    unfold OptStore.Same at q
    rw [List.map_take, List.map_append] at q
    have h3 := congrArg (List.take (min 7 (lit v).length)) q
    rw [List.take_take, show min (min 7 (lit v).length) (lit v).length = min 7 (lit v).length by omega,
      List.take_append_of_le_length (by rw [List.length_map, show (lit "Reject(").length = 7 by decide +kernel]; omega)] at h3
    exact h3
  · obtain ⟨y, rfl⟩ := hs
    rw [show lit "Reject(" = 82 :: lit "eject(" by decide +kernel]
    simp

/-! ### Examples -/

def two : List Written := [⟨0, lit "Category", 1, lit "tv shows", 0, .category (lit "tv shows")⟩, ⟨1, lit "pr+", 0, lit "-50", 0, .addPriority (-50)⟩,
  ⟨1, lit "dm", 0, lit "ALL", 1, .mode .all⟩]

example : joined (two.map Written.text) = lit "Category: tv shows, pr+:-50, dm:ALL " := by decide +kernel

example : ∀ w ∈ two, w.Ok := by
  intro w hw
  simp only [two, List.mem_cons, List.not_mem_nil, or_false] at hw
  have nb : ∀ b : UInt8, Blank b ↔ isBlank b = true := fun b => (isBlank_iff b).symm
  rcases hw with q | q | q <;> subst q
  · exact ⟨⟨"category", by simp [Setting.names], by decide +kernel⟩, rfl, by decide +kernel, by decide +kernel,
      by intro b hb; rw [nb]; revert hb; revert b; decide +kernel, by intro b hb; rw [nb]; revert hb; revert b; decide +kernel⟩
  · exact ⟨⟨"pr+", by simp [Setting.names], by decide +kernel⟩, ⟨by decide, by decide, by decide +kernel⟩, by decide +kernel, by decide +kernel,
      by intro b hb; rw [nb]; revert hb; revert b; decide +kernel, by intro b hb; rw [nb]; revert hb; revert b; decide +kernel⟩
  · exact ⟨⟨"dm", by simp [Setting.names], by decide +kernel⟩, .inl (by decide +kernel), by decide +kernel, by decide +kernel,
      by intro b hb; rw [nb]; revert hb; revert b; decide +kernel, by intro b hb; rw [nb]; revert hb; revert b; decide +kernel⟩

def seen (t : String) : Bool × Command × Opts := let r := readRule FeedTerm.exact (lit t); (r.valid, r.command, r.opts)

example : seen "a(Category: tv shows, pr+:-50, dm:ALL ): size:>1GB -dvdrip" =
    (true, .accept, { category := some (lit "tv shows"), addPriority := some (-50), mode := some .all }) := by decide +kernel
example : seen "Reject: size:<10T" = (false, .reject, {}) ∧ seen "R: -dvd" = (true, .reject, {}) ∧ seen "Q: hd" = (true, .require, {}) := by decide +kernel
example : seen "A(prio:5): hd" = (true, .accept, { category := some (lit "prio") }) ∧ seen "A(p:maybe): hd" = (false, .accept, {}) := by decide +kernel
example : seen "Reject(x) hd" = (true, .accept, {}) ∧ seen "# text" = (true, .comment, {}) := by decide +kernel
example : (readFilter FeedTerm.exact (lit "R: dvd%A: hd")).map (·.command) = [.reject, .accept] := by decide +kernel
example : ∃ ts s, Spaced ts s ∧ Tokens ts ∧ s = lit "hd -dvd" := by
  refine ⟨[lit "hd", lit "-dvd"], _, .cons (lit "hd") _ _ 0 (.last (lit "-dvd")), ?_, by decide +kernel⟩
  have : ∀ t ∈ [lit "hd", lit "-dvd"], t ≠ [] ∧ ∀ b ∈ t, isBlank b = false := by decide +kernel
  exact fun t ht => ⟨(this t ht).1, fun b hb g => by rw [← isBlank_iff, (this t ht).2 b hb] at g; exact nomatch g⟩

end Verif.FeedOpts
