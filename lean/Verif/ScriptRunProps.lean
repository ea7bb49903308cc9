import Verif.ScriptRun
import Verif.PpParamProps
import Verif.QueueScriptProps
import Verif.TokensProps
/-! C120: what scripts are given, and what their output and their end do. -/
namespace Verif.ScriptRun
open CStr
open MsgLog (Kind)
open PpParam (Params cut cut_append cut_skip takeWhile_name)

/-! ### Specification -/

/-- A text on one line. -/
def OnLine (l : Bytes) : Prop := (10 : UInt8) ∉ l ∧ (0 : UInt8) ∉ l

/-- Lines as a script prints them. -/
def printed (ls : List Bytes) : Bytes := ls.flatMap (· ++ [10])

/-- The tag of a kind of messages. -/
def tag : Kind → Bytes
  | .info => lit "[INFO] "
  | .warning => lit "[WARNING] "
  | .error => lit "[ERROR] "
  | .detail => lit "[DETAIL] "
  | .debug => lit "[DEBUG] "

/-- A text with something in it and nothing to be removed at its end. -/
def Solid (t : Bytes) : Prop := ∃ a c, t = a ++ [c] ∧ c ≠ 32 ∧ c ≠ 13 ∧ c ≠ 10

/-- The commands of post-processing scripts. -/
inductive Cmd where
  | final (v : Bytes)
  | dir (v : Bytes)
  | param (n v : Bytes)

def Cmd.text : Cmd → Bytes
  | .final v => lit "[NZB] FINALDIR=" ++ v
  | .dir v => lit "[NZB] DIRECTORY=" ++ v
  | .param n v => lit "[NZB] NZBPR_" ++ n ++ lit "=" ++ v

def Cmd.effect (i : Item) : Cmd → Item
  | .final v => { i with finalDir := v }
  | .dir v => { i with destDir := v }
  | .param n v => { i with params := PpParam.set i.params n v }

/-- The name of a parameter has no equals sign. -/
def Cmd.Valid : Cmd → Prop
  | .param n _ => (61 : UInt8) ∉ n
  | _ => True

/-- The status of a script by its exit code. -/
inductive StatusOf (checked : Bool) : Int → Status → Prop where
  | success : StatusOf checked 93 .success
  | skipped : StatusOf checked 95 .none
  | parCheck : checked = false → StatusOf checked 92 .success
  | failed (c : Int) : c ≠ 93 → c ≠ 95 → (c = 92 → checked = true) → StatusOf checked c .failure

/-- The script asks for a par-check, and none was made. -/
def Asks (checked : Bool) (x : Script × Run) : Prop := exitCode x.2.ends x.2.out = 92 ∧ checked = false

/-- The entry has the parameter `name:` set to yes. -/
def Assigned (ps : Params) (name : Bytes) : Prop := ∃ v, (name ++ [58], v) ∈ ps ∧ QueueScript.Yes v

/-! ### Lines -/

theorem pieces_line (l rest : Bytes) (h : (10 : UInt8) ∉ l) : ∀ (left : Nat) (acc : Bytes), l.length < left →
    pieces left acc (l ++ 10 :: rest) = (acc ++ l ++ [10]) :: pieces 10239 [] rest := by
  induction l with
  | nil => intro left acc _; rw [List.nil_append, pieces, if_pos (Or.inl rfl), List.append_nil]
  | cons b l ih =>
    intro left acc hl
    rw [List.mem_cons, not_or] at h
    simp only [List.length_cons] at hl
    rw [List.cons_append, pieces, if_neg (by intro o; rcases o with o | o; exact h.1 o.symm; omega), ih h.2 _ _ (by omega)]
    simp only [List.append_assoc, List.cons_append, List.nil_append]

theorem pieces_rest (l : Bytes) (h : (10 : UInt8) ∉ l) : ∀ (left : Nat) (acc : Bytes), l.length < left →
    pieces left acc l = if acc ++ l = [] then [] else [acc ++ l] := by
  induction l with
  | nil => intro left acc _; rw [pieces, List.append_nil]
  | cons b l ih =>
    intro left acc hl
    rw [List.mem_cons, not_or] at h
    simp only [List.length_cons] at hl
    rw [pieces, if_neg (by intro o; rcases o with o | o; exact h.1 o.symm; omega), ih h.2 _ _ (by omega)]
    simp only [List.append_assoc, List.cons_append, List.nil_append]

theorem received_cons (l rest : Bytes) (h : (10 : UInt8) ∉ l) (hl : l.length < 10239) : received (l ++ 10 :: rest) = (l ++ [10]) :: received rest := by
  have e : ∀ o, received o = pieces 10239 [] o := by
    intro o
    unfold received
    rw [pieces, if_pos (Or.inl rfl), List.drop_succ_cons, List.drop_zero]
  rw [e, e, pieces_line l rest h _ _ hl, List.nil_append]

/-- The output is taken line by line, in the order in which it was printed; the last line needs no end. -/
theorem lines_received (ls : List Bytes) (last : Bytes) (h : ∀ l ∈ ls, (10 : UInt8) ∉ l ∧ l.length < 10239) (hl : (10 : UInt8) ∉ last)
    (hn : last.length < 10239) : received (printed ls ++ last) = ls.map (· ++ [10]) ++ if last = [] then [] else [last] := by
  induction ls with
  | nil =>
    show received last = _
    unfold received
    rw [pieces, if_pos (Or.inl rfl), List.drop_succ_cons, List.drop_zero, pieces_rest last hl _ _ hn]
    rfl
  | cons l ls ih =>
    have e : printed (l :: ls) ++ last = l ++ 10 :: (printed ls ++ last) := by
      unfold printed; simp only [List.flatMap_cons, List.append_assoc, List.cons_append, List.nil_append]
    obtain ⟨h1, h2⟩ := h l List.mem_cons_self
    rw [e, received_cons _ _ h1 h2, ih (fun x hx => h x (List.mem_cons_of_mem _ hx))]
    rfl

theorem pieces_full (a b : Bytes) : ∀ (left : Nat) (acc : Bytes), a.length = left → a ≠ [] → (10 : UInt8) ∉ a →
    pieces left acc (a ++ b) = (acc ++ a) :: pieces 10239 [] b := by
  induction a with
  | nil => intro _ _ _ h; exact absurd rfl h
  | cons c a ih =>
    intro left acc hl _ h
    rw [List.mem_cons, not_or] at h
    simp only [List.length_cons] at hl
    by_cases ha : a = []
    · subst ha
      rw [List.cons_append, pieces, if_pos (Or.inr (by simp only [List.length_nil] at hl; omega)), List.nil_append]
    · have : 0 < a.length := List.length_pos_iff.2 ha
      rw [List.cons_append, pieces, if_neg (by intro o; rcases o with o | o; exact h.1 o.symm; omega), ih _ _ (by omega) ha h.2]
      simp only [List.append_assoc, List.cons_append, List.nil_append]

/-! ### Messages -/

theorem trimEnd_solid (a : Bytes) (c : UInt8) (h : c ≠ 32 ∧ c ≠ 13 ∧ c ≠ 10) (e : Bytes) (he : ∀ b ∈ e, b = 32 ∨ b = 13 ∨ b = 10) :
    trimEnd (a ++ [c] ++ e) = a ++ [c] := by
  unfold trimEnd
  have hd : ∀ r : Bytes, (∀ b ∈ r, b = 32 ∨ b = 13 ∨ b = 10) → (r ++ c :: a.reverse).dropWhile isEnd = c :: a.reverse := by
    intro r
    induction r with
    | nil =>
      intro _
      rw [List.nil_append, List.dropWhile_cons, if_neg]
      unfold isEnd
      simp only [Bool.or_eq_true, beq_iff_eq, not_or]
      exact ⟨⟨h.2.2, h.2.1⟩, h.1⟩
    | cons b r ih =>
      intro hr
      rw [List.cons_append, List.dropWhile_cons, if_pos, ih (fun x hx => hr x (List.mem_cons_of_mem _ hx))]
      unfold isEnd
      simp only [Bool.or_eq_true, beq_iff_eq]
      rcases hr b List.mem_cons_self with k | k | k
      · exact Or.inr k
      · exact Or.inl (Or.inr k)
      · exact Or.inl (Or.inl k)
  rw [List.reverse_append, List.reverse_append, List.reverse_singleton, List.singleton_append, hd _ (fun b hb => he b (List.mem_reverse.1 hb)),
    List.reverse_cons, List.reverse_reverse]

theorem no_nul_ends (t e : Bytes) (h : (0 : UInt8) ∉ t) (he : ∀ b ∈ e, b = 32 ∨ b = 13 ∨ b = 10) : cstr (t ++ e) = t ++ e := by
  refine cstr_of_no_nul ?_
  intro b hb e0
  rcases List.mem_append.1 hb with hb | hb
  · exact h (e0 ▸ hb)
  · subst e0
    rcases he 0 hb with k | k | k <;> exact absurd k (by decide)

theorem solid_append (p t : Bytes) (h : Solid t) : Solid (p ++ t) := by
  obtain ⟨a, c, rfl, k⟩ := h
  exact ⟨p ++ a, c, by rw [List.append_assoc], k⟩

theorem solid_ne (t : Bytes) (h : Solid t) : t ≠ [] := by
  obtain ⟨a, c, rfl, _⟩ := h
  simp

/-- The text of a line as ProcessOutput sees it. -/
theorem processOutput_eq (t e : Bytes) (h0 : (0 : UInt8) ∉ t) (hs : Solid t) (he : ∀ b ∈ e, b = 32 ∨ b = 13 ∨ b = 10) :
    processOutput (t ++ e) = some (match cut (lit "[INFO] ") t with
    | some m => (.info, m)
    | none =>
    match cut (lit "[WARNING] ") t with
    | some m => (.warning, m)
    | none =>
    match cut (lit "[ERROR] ") t with
    | some m => (.error, m)
    | none =>
    match cut (lit "[DETAIL] ") t with
    | some m => (.detail, m)
    | none =>
    match cut (lit "[DEBUG] ") t with
    | some m => (.debug, m)
    | none => (.info, t)) := by
  have ht : trimEnd (cstr (t ++ e)) = t := by
    rw [no_nul_ends t e h0 he]
    obtain ⟨a, c, rfl, k⟩ := hs
    exact trimEnd_solid a c k e he
  unfold processOutput
  rw [ht]
  dsimp only
  rw [if_neg (solid_ne t hs)]
  rfl

/-- A line with a tag is a message of that kind, without the tag and without blanks at its end. -/
theorem tagged_line (k : Kind) (t e : Bytes) (h0 : (0 : UInt8) ∉ t) (hs : Solid t) (he : ∀ b ∈ e, b = 32 ∨ b = 13 ∨ b = 10) :
    processOutput (tag k ++ t ++ e) = some (k, t) := by
  have h0' : (0 : UInt8) ∉ tag k ++ t := by
    rw [List.mem_append, not_or]
    exact ⟨by cases k <;> decide, h0⟩
  rw [processOutput_eq _ e h0' (solid_append _ t hs) he]
  cases k
  · rw [show tag .info = lit "[INFO] " from rfl, cut_append]
  · rw [show tag .warning = lit "[WARNING] " from rfl, cut_skip _ _ _ (by decide), cut_append]
  · rw [show tag .error = lit "[ERROR] " from rfl, cut_skip _ _ _ (by decide), cut_skip _ _ _ (by decide), cut_append]
  · rw [show tag .debug = lit "[DEBUG] " from rfl, cut_skip _ _ _ (by decide), cut_skip _ _ _ (by decide), cut_skip _ _ _ (by decide),
      cut_skip _ _ _ (by decide), cut_append]
  · rw [show tag .detail = lit "[DETAIL] " from rfl, cut_skip _ _ _ (by decide), cut_skip _ _ _ (by decide), cut_skip _ _ _ (by decide), cut_append]

theorem cut_none (p t : Bytes) (h : ¬ p <+: t) : cut p t = none := by
  unfold cut startsWith
  rw [if_neg]
  rw [List.isPrefixOf_iff_prefix]
  exact h

theorem cut_some (p t m : Bytes) (h : cut p t = some m) : t = p ++ m := by
  unfold cut startsWith at h
  by_cases g : p.isPrefixOf t = true
  · rw [if_pos g] at h
    rw [List.isPrefixOf_iff_prefix] at g
    obtain ⟨r, rfl⟩ := g
    rw [List.drop_left] at h
    injection h with h
    rw [h]
  · rw [if_neg g] at h
    exact nomatch h

/-- A line without a tag is an information. -/
theorem untagged_line (t e : Bytes) (h0 : (0 : UInt8) ∉ t) (hs : Solid t) (he : ∀ b ∈ e, b = 32 ∨ b = 13 ∨ b = 10) (ht : ∀ k, ¬ tag k <+: t) :
    processOutput (t ++ e) = some (.info, t) := by
  rw [processOutput_eq t e h0 hs he, cut_none (lit "[INFO] ") _ (ht .info), cut_none (lit "[WARNING] ") _ (ht .warning), cut_none (lit "[ERROR] ") _ (ht .error),
    cut_none (lit "[DETAIL] ") _ (ht .detail), cut_none (lit "[DEBUG] ") _ (ht .debug)]

/-- An empty line is no message. -/
theorem empty_line (e : Bytes) (he : ∀ b ∈ e, b = 32 ∨ b = 13 ∨ b = 10) : processOutput e = none := by
  have h : trimEnd (cstr e) = [] := by
    have : cstr ([] ++ e) = [] ++ e := no_nul_ends [] e (fun q => nomatch q) he
    rw [List.nil_append] at this
    rw [this]
    unfold trimEnd
    have : ∀ r : Bytes, (∀ b ∈ r, b = 32 ∨ b = 13 ∨ b = 10) → r.dropWhile isEnd = [] := by
      intro r
      induction r with
      | nil => intro _; rfl
      | cons b r ih =>
        intro hr
        rw [List.dropWhile_cons, if_pos, ih (fun x hx => hr x (List.mem_cons_of_mem _ hx))]
        unfold isEnd
        simp only [Bool.or_eq_true, beq_iff_eq]
        rcases hr b List.mem_cons_self with k | k | k
        · exact Or.inr k
        · exact Or.inl (Or.inr k)
        · exact Or.inl (Or.inl k)
    rw [this _ (fun b hb => he b (List.mem_reverse.1 hb))]
    rfl
  unfold processOutput
  rw [h]
  rfl

theorem drop_printed (d t : Bytes) (hd : d.length ≤ 1021) :
    (printMessage (some d) t).drop (d.length + 2) = t.take (1021 - d.length) ∧ ¬ (printMessage (some d) t).length < d.length + 2 := by
  have e : printMessage (some d) t = d ++ lit ": " ++ (t.take 1023).take (1021 - d.length) := by
    unfold printMessage
    dsimp only
    rw [List.take_append, List.take_of_length_le (by rw [List.length_append, show (lit ": ").length = 2 from rfl]; omega), List.length_append,
      show (lit ": ").length = 2 from rfl, show 1023 - (d.length + 2) = 1021 - d.length by omega]
  have hl : (d ++ lit ": ").length = d.length + 2 := by rw [List.length_append]; rfl
  rw [e]
  constructor
  · rw [← hl, List.drop_left, List.take_take, Nat.min_eq_left (by omega)]
  · rw [List.length_append, hl]; omega

/-! ### Commands -/

theorem not_tagged (t : Bytes) (k : Kind) : ¬ tag k <+: lit "[NZB] " ++ t := by
  intro h
  have : cut (tag k) (lit "[NZB] " ++ t) = none := by cases k <;> exact cut_skip _ _ _ (by decide)
  obtain ⟨m, e⟩ := h
  rw [← e, cut_append] at this
  exact nomatch this

theorem addMessage_cmd (n : Nat) (info : Bytes) (depth : Nat) (k : Kind) (text t : Bytes) (i : Item) (hn : ¬ text.length < n)
    (ht : text.drop n = lit "[NZB] " ++ t) : addMessage n info (depth + 1) k text i =
      match cut (lit "FINALDIR=") t with
        | some v => .done { i with finalDir := v }
        | none =>
        match cut (lit "DIRECTORY=") t with
        | some v => .done { i with destDir := v }
        | none =>
        match cut (lit "NZBPR_") t with
        | some p =>
          if p.contains 61 then .done { i with params := PpParam.set i.params (p.takeWhile (· ≠ 61)) ((p.dropWhile (· ≠ 61)).drop 1) }
          else .done (i.say .error (invalid info (lit "[NZB] " ++ t)))
        | none =>
        match cut (lit "MARK=BAD") t with
        | some _ => (addMessage n info depth .warning (printMessage none (marking i.name)) i).bind (fun i => .done { i with bad := true })
        | none => .done (i.say .error (invalid info (lit "[NZB] " ++ t))) := by
  rw [addMessage, if_neg hn, ht]
  dsimp only
  rw [cut_append]
  rfl

theorem addMessage_other (n : Nat) (info : Bytes) (depth : Nat) (k : Kind) (text : Bytes) (i : Item) (hn : ¬ text.length < n)
    (ht : ¬ lit "[NZB] " <+: text.drop n) : addMessage n info (depth + 1) k text i = .done (i.say k text) := by
  rw [addMessage, if_neg hn]
  dsimp only
  rw [cut_none _ _ ht]

/-- A command line of a script does what it says and nothing else, if the line fits. -/
theorem command_done (s : Script) (info : Bytes) (depth : Nat) (i : Item) (c : Cmd) (hc : c.Valid) (hl : OnLine c.text) (hs : Solid c.text)
    (hf : s.display.length + 2 + c.text.length ≤ 1023) : onPiece s info (depth + 1) i (c.text ++ [10]) = .done (c.effect i) := by
  have he : ∀ b ∈ [(10 : UInt8)], b = 32 ∨ b = 13 ∨ b = 10 := fun b hb => Or.inr (Or.inr (List.mem_singleton.1 hb))
  have key : ∀ t, c.text = lit "[NZB] " ++ t → onPiece s info (depth + 1) i (c.text ++ [10]) =
      addMessage s.prefixLen info (depth + 1) .info (printMessage (some s.display) c.text) i ∧
      (printMessage (some s.display) c.text).drop s.prefixLen = lit "[NZB] " ++ t ∧ ¬ (printMessage (some s.display) c.text).length < s.prefixLen := by
    intro t e
    obtain ⟨d1, d2⟩ := drop_printed s.display c.text (by omega)
    refine ⟨?_, ?_, d2⟩
    · unfold onPiece
      rw [untagged_line c.text [10] hl.2 hs he (fun k => e ▸ not_tagged t k)]
    · show List.drop (s.display.length + 2) _ = _
      rw [d1, List.take_of_length_le (by omega), e]
  rcases c with v | v | ⟨n, v⟩
  · obtain ⟨k1, k2, k3⟩ := key (lit "FINALDIR=" ++ v) (by rw [← List.append_assoc]; rfl)
    rw [k1, addMessage_cmd _ _ _ _ _ _ _ k3 k2, cut_append]
    rfl
  · obtain ⟨k1, k2, k3⟩ := key (lit "DIRECTORY=" ++ v) (by rw [← List.append_assoc]; rfl)
    rw [k1, addMessage_cmd _ _ _ _ _ _ _ k3 k2, cut_skip _ _ _ (by decide), cut_append]
    rfl
  · obtain ⟨k1, k2, k3⟩ := key (lit "NZBPR_" ++ (n ++ lit "=" ++ v)) (by rw [← List.append_assoc, ← List.append_assoc, ← List.append_assoc]; rfl)
    rw [k1, addMessage_cmd _ _ _ _ _ _ _ k3 k2, cut_skip _ _ _ (by decide), cut_skip _ _ _ (by decide), cut_append]
    dsimp only
    obtain ⟨t1, t2⟩ := takeWhile_name n v hc
    rw [if_pos (by rw [List.contains_iff_mem]; simp [lit]), t1, t2]
    rfl

/-- Any other line is a message of the entry, with the name of the script, and changes nothing else. -/
theorem other_line (s : Script) (info : Bytes) (depth : Nat) (i : Item) (piece : Bytes) (k : Kind) (t : Bytes) (hp : processOutput piece = some (k, t))
    (hd : s.display.length ≤ 1000) (ht : ¬ lit "[NZB] " <+: t) :
    onPiece s info (depth + 1) i piece = .done { i with log := i.log ++ [(k, (s.display ++ lit ": " ++ t).take 1023)] } := by
  obtain ⟨d1, d2⟩ := drop_printed s.display t (by omega)
  unfold onPiece
  rw [hp]
  dsimp only
  rw [addMessage_other s.prefixLen _ _ _ _ _ d2 (by
    show ¬ _ <+: List.drop (s.display.length + 2) _
    rw [d1]
    exact fun h => ht (h.trans (List.take_prefix _ _)))]
  unfold Item.say
  have : printMessage (some s.display) t = (s.display ++ lit ": " ++ t).take 1023 := by
    unfold printMessage
    dsimp only
    rw [List.take_append (l₂ := t), List.take_append (l₂ := t.take 1023), List.take_take, Nat.min_eq_left (by omega)]
  rw [this]

/-- A command which is not known is reported, and changes nothing else. -/
theorem unknown_command (s : Script) (info : Bytes) (depth : Nat) (i : Item) (t : Bytes) (hl : OnLine t) (hs : Solid t)
    (hf : s.display.length + 8 + t.length ≤ 1023) (h1 : ¬ lit "FINALDIR=" <+: t) (h2 : ¬ lit "DIRECTORY=" <+: t) (h3 : ¬ lit "MARK=BAD" <+: t)
    (h4 : ∀ r, t = lit "NZBPR_" ++ r → (61 : UInt8) ∉ r) :
    onPiece s info (depth + 1) i (lit "[NZB] " ++ t ++ [10]) =
      .done { i with log := i.log ++ [(.error, (lit "Invalid command \"[NZB] " ++ t ++ lit "\" received from " ++ info).take 1023)] } := by
  have he : ∀ b ∈ [(10 : UInt8)], b = 32 ∨ b = 13 ∨ b = 10 := fun b hb => Or.inr (Or.inr (List.mem_singleton.1 hb))
  have h0 : (0 : UInt8) ∉ lit "[NZB] " ++ t := by rw [List.mem_append, not_or]; exact ⟨by decide, hl.2⟩
  obtain ⟨d1, d2⟩ := drop_printed s.display (lit "[NZB] " ++ t) (by omega)
  have hlen : (lit "[NZB] " ++ t).length = 6 + t.length := by rw [List.length_append]; rfl
  rw [List.take_of_length_le (by omega)] at d1
  unfold onPiece
  rw [untagged_line _ [10] h0 (solid_append _ t hs) he (not_tagged t)]
  dsimp only
  rw [addMessage_cmd s.prefixLen _ _ _ _ _ _ d2 d1, cut_none _ _ h1, cut_none _ _ h2]
  have hi : invalid info (lit "[NZB] " ++ t) = (lit "Invalid command \"[NZB] " ++ t ++ lit "\" received from " ++ info).take 1023 := by
    unfold invalid
    rw [← List.append_assoc]
    rfl
  dsimp only
  cases hc : cut (lit "NZBPR_") t with
  | none =>
    dsimp only
    rw [cut_none _ _ h3]
    dsimp only
    rw [hi]
    rfl
  | some r =>
    dsimp only
    rw [if_neg (by rw [List.contains_iff_mem]; exact h4 r (cut_some _ _ _ hc)), hi]
    rfl

/-- The text is long enough and does not look like a command for a script whose messages have `n` bytes in front. -/
def Harmless (n : Nat) (text : Bytes) : Prop := n ≤ text.length ∧ ¬ lit "[NZB] " <+: text.drop n

theorem mark_line (s : Script) (info : Bytes) (depth : Nat) (i : Item) (v : Bytes) (hl : OnLine v) (hs : v = [] ∨ Solid v) (hd : s.display.length ≤ 1000) :
    onPiece s info (depth + 1) i (lit "[NZB] MARK=BAD" ++ v ++ [10]) =
      (addMessage s.prefixLen info depth .warning (printMessage none (marking i.name)) i).bind (fun i => .done { i with bad := true }) := by
  have he : ∀ b ∈ [(10 : UInt8)], b = 32 ∨ b = 13 ∨ b = 10 := fun b hb => Or.inr (Or.inr (List.mem_singleton.1 hb))
  have h0 : (0 : UInt8) ∉ lit "[NZB] MARK=BAD" ++ v := by rw [List.mem_append, not_or]; exact ⟨by decide, hl.2⟩
  have hsol : Solid (lit "[NZB] MARK=BAD" ++ v) := by
    rcases hs with rfl | hs
    · exact ⟨lit "[NZB] MARK=BA", 68, rfl, by decide⟩
    · exact solid_append _ _ hs
  obtain ⟨d1, d2⟩ := drop_printed s.display (lit "[NZB] MARK=BAD" ++ v) (by omega)
  have ed : (lit "[NZB] MARK=BAD" ++ v).take (1021 - s.display.length) = lit "[NZB] " ++ (lit "MARK=BAD" ++ v.take (1007 - s.display.length)) := by
    rw [List.take_append, List.take_of_length_le (by rw [show (lit "[NZB] MARK=BAD").length = 14 from rfl]; omega),
      show (lit "[NZB] MARK=BAD").length = 14 from rfl, show 1021 - s.display.length - 14 = 1007 - s.display.length by omega, ← List.append_assoc]
    rfl
  unfold onPiece
  rw [untagged_line _ [10] h0 hsol he (fun k => by
    rw [show lit "[NZB] MARK=BAD" ++ v = lit "[NZB] " ++ (lit "MARK=BAD" ++ v) by rw [← List.append_assoc]; rfl]
    exact not_tagged _ k)]
  dsimp only
  rw [addMessage_cmd s.prefixLen _ _ _ _ _ _ d2 (d1.trans ed), cut_skip _ _ _ (by decide), cut_skip _ _ _ (by decide), cut_skip _ _ _ (by decide), cut_append]

/-- A script can mark the entry as bad; a warning says so. -/
theorem mark_bad (s : Script) (info : Bytes) (depth : Nat) (i : Item) (hd : s.display.length ≤ 1000)
    (hh : Harmless (s.display.length + 2) ((lit "Marking " ++ i.name ++ lit " as bad").take 1023)) :
    onPiece s info (depth + 2) i (lit "[NZB] MARK=BAD" ++ [10]) =
      .done { i with bad := true, log := i.log ++ [(.warning, (lit "Marking " ++ i.name ++ lit " as bad").take 1023)] } := by
  have := mark_line s info (depth + 1) i [] ⟨(fun q => nomatch q), (fun q => nomatch q)⟩ (Or.inl rfl) hd
  rw [List.append_nil] at this
  rw [this, addMessage_other s.prefixLen _ _ _ _ _ (by exact Nat.not_lt.2 hh.1) (by exact hh.2)]
  rfl

/-- The texts with names which have no bracket are harmless. -/
theorem harmless_name (n : Nat) (name : Bytes) (h : (91 : UInt8) ∉ name) (hn : n ≤ name.length + 15) (hl : name.length ≤ 1000) :
    Harmless n ((lit "Marking " ++ name ++ lit " as bad").take 1023) := by
  have hlen : (lit "Marking " ++ name ++ lit " as bad").length = name.length + 15 := by
    rw [List.length_append, List.length_append, show (lit "Marking ").length = 8 from rfl, show (lit " as bad").length = 7 from rfl]; omega
  rw [List.take_of_length_le (by omega)]
  refine ⟨by omega, ?_⟩
  rintro ⟨r, e⟩
  have : (91 : UInt8) ∈ List.drop n (lit "Marking " ++ name ++ lit " as bad") := by rw [← e]; exact List.mem_append_left _ (by decide)
  have := List.mem_of_mem_drop this
  rcases List.mem_append.1 this with k | k
  · rcases List.mem_append.1 k with k | k
    · revert k; decide
    · exact h k
  · revert k; decide

example : onPiece ⟨lit "EMail.py", lit "EMail", true⟩ (lit "post-process-script EMail.py for X") 5 ⟨lit "X", [], lit "/dst/X", [], false, []⟩
    (lit "[NZB] FINALDIR=/movies/X (2020)" ++ [10]) = .done ⟨lit "X", lit "/movies/X (2020)", lit "/dst/X", [], false, []⟩ :=
  command_done ⟨lit "EMail.py", lit "EMail", true⟩ _ 4 _ (.final (lit "/movies/X (2020)")) trivial (by unfold OnLine; decide +kernel)
    ⟨lit "[NZB] FINALDIR=/movies/X (2020", 41, rfl, by decide⟩ (by decide +kernel)

/-! ### Where commands go wrong -/

/-- Finding: what does not fit into 1023 bytes together with the name of the script is cut off without a warning: the directory is a wrong one. -/
theorem long_value_cut (s : Script) (info : Bytes) (depth : Nat) (i : Item) (v : Bytes) (hl : OnLine v) (hs : Solid v) (hd : s.display.length ≤ 1000) :
    onPiece s info (depth + 1) i (lit "[NZB] FINALDIR=" ++ v ++ [10]) = .done { i with finalDir := v.take (1006 - s.display.length) } := by
  have he : ∀ b ∈ [(10 : UInt8)], b = 32 ∨ b = 13 ∨ b = 10 := fun b hb => Or.inr (Or.inr (List.mem_singleton.1 hb))
  have h0 : (0 : UInt8) ∉ lit "[NZB] FINALDIR=" ++ v := by rw [List.mem_append, not_or]; exact ⟨by decide, hl.2⟩
  obtain ⟨d1, d2⟩ := drop_printed s.display (lit "[NZB] FINALDIR=" ++ v) (by omega)
  have ed : (lit "[NZB] FINALDIR=" ++ v).take (1021 - s.display.length) = lit "[NZB] " ++ (lit "FINALDIR=" ++ v.take (1006 - s.display.length)) := by
    rw [List.take_append, List.take_of_length_le (by rw [show (lit "[NZB] FINALDIR=").length = 15 from rfl]; omega),
      show (lit "[NZB] FINALDIR=").length = 15 from rfl, show 1021 - s.display.length - 15 = 1006 - s.display.length by omega, ← List.append_assoc]
    rfl
  unfold onPiece
  rw [untagged_line _ [10] h0 (solid_append _ _ hs) he (fun k => by
    rw [show lit "[NZB] FINALDIR=" ++ v = lit "[NZB] " ++ (lit "FINALDIR=" ++ v) by rw [← List.append_assoc]; rfl]
    exact not_tagged _ k)]
  dsimp only
  rw [addMessage_cmd s.prefixLen _ _ _ _ _ _ d2 (d1.trans ed), cut_append]

theorem onPieces_cons (s : Script) (info : Bytes) (depth : Nat) (p : Bytes) (ps : List Bytes) (i : Item) :
    onPieces s info depth (p :: ps) i = (onPiece s info depth i p).bind (onPieces s info depth ps) := rfl

theorem received_pieces (o : Bytes) : received o = pieces 10239 [] o := by
  unfold received
  rw [pieces, if_pos (Or.inl rfl), List.drop_succ_cons, List.drop_zero]

theorem onPiece_end (s : Script) (info : Bytes) (depth : Nat) (i : Item) (a : Bytes) (h : (0 : UInt8) ∉ a) :
    onPiece s info depth i (a ++ [10]) = onPiece s info depth i a := by
  have e1 : cstr (a ++ [10]) = a ++ [10] := no_nul_ends a [10] h (fun b hb => Or.inr (Or.inr (List.mem_singleton.1 hb)))
  have e2 : cstr a = a := cstr_of_no_nul (fun b hb e => h (e ▸ hb))
  have e : processOutput (a ++ [10]) = processOutput a := by
    unfold processOutput
    rw [e1, e2]
    have : trimEnd (a ++ [10]) = trimEnd a := by
      unfold trimEnd
      rw [List.reverse_append, List.reverse_singleton, List.singleton_append, List.dropWhile_cons, if_pos (by rfl)]
    rw [this]
  unfold onPiece
  rw [e]

/-- Finding: a line of more than 10239 bytes is taken for several lines; what follows can be taken for a command. -/
theorem overlong_line (s : Script) (info : Bytes) (depth : Nat) (i : Item) (a b : Bytes) (ha : OnLine a) (hn : a.length = 10239) :
    onOutput s info depth (a ++ b) i = (onPiece s info depth i (a ++ [10])).bind (onOutput s info depth b) := by
  unfold onOutput
  rw [received_pieces, pieces_full a b 10239 [] hn (by intro e; rw [e] at hn; exact absurd hn (by decide)) ha.1, List.nil_append, onPieces_cons,
    onPiece_end _ _ _ _ _ ha.2]
  have : onPieces s info depth (pieces 10239 [] b) = fun j => onPieces s info depth (received b) j := by
    funext j; rw [received_pieces]
  rw [this]

/-- Finding: the warning about the mark is examined like the output of the script: with a name of the entry which looks like a command at the
place where the output of the script begins, the command is executed. -/
theorem name_is_executed (s : Script) (info : Bytes) (depth : Nat) (i : Item) (v : Bytes) (hd : s.display.length = 6)
    (hi : i.name = lit "[NZB] DIRECTORY=" ++ v) (hv : v.length ≤ 900) :
    onPiece s info (depth + 2) i (lit "[NZB] MARK=BAD" ++ [10]) = .done { i with bad := true, destDir := v ++ lit " as bad" } := by
  have := mark_line s info (depth + 1) i [] ⟨(fun q => nomatch q), (fun q => nomatch q)⟩ (Or.inl rfl) (by omega)
  rw [List.append_nil] at this
  rw [this]
  have e : printMessage none (marking i.name) = lit "Marking " ++ (lit "[NZB] " ++ (lit "DIRECTORY=" ++ (v ++ lit " as bad"))) := by
    unfold printMessage marking
    dsimp only
    rw [hi, List.take_of_length_le]
    · simp only [← List.append_assoc]
      rfl
    · simp only [List.length_append, show (lit "Marking ").length = 8 from rfl, show (lit " as bad").length = 7 from rfl,
        show (lit "[NZB] DIRECTORY=").length = 16 from rfl]
      omega
  have hp : s.prefixLen = (lit "Marking ").length := by unfold Script.prefixLen; rw [hd]; rfl
  rw [addMessage_cmd _ _ _ _ _ _ _ (by rw [e, hp, List.length_append]; omega) (by rw [e, hp, List.drop_left]), cut_skip _ _ _ (by decide), cut_append]
  rfl

/-- Finding: with the name "[NZB] MARK=BAD" (or longer) the calls never end, however large the stack is. -/
theorem name_never_ends (s : Script) (info : Bytes) (i : Item) (v : Bytes) (hd : s.display.length = 6) (hi : i.name = lit "[NZB] MARK=BAD" ++ v)
    (hv : v.length ≤ 900) : ∀ depth, onPiece s info depth i (lit "[NZB] MARK=BAD" ++ [10]) = .endless := by
  have e : printMessage none (marking i.name) = lit "Marking " ++ (lit "[NZB] " ++ (lit "MARK=BAD" ++ (v ++ lit " as bad"))) := by
    unfold printMessage marking
    dsimp only
    rw [hi, List.take_of_length_le]
    · simp only [← List.append_assoc]
      rfl
    · simp only [List.length_append, show (lit "Marking ").length = 8 from rfl, show (lit " as bad").length = 7 from rfl,
        show (lit "[NZB] MARK=BAD").length = 14 from rfl]
      omega
  have hp : s.prefixLen = (lit "Marking ").length := by unfold Script.prefixLen; rw [hd]; rfl
  have loop : ∀ depth, addMessage s.prefixLen info depth .warning (printMessage none (marking i.name)) i = .endless := by
    intro depth
    induction depth with
    | zero => rfl
    | succ depth ih =>
      rw [addMessage_cmd _ _ _ _ _ _ _ (by rw [e, hp, List.length_append]; omega) (by rw [e, hp, List.drop_left]), cut_skip _ _ _ (by decide),
        cut_skip _ _ _ (by decide), cut_skip _ _ _ (by decide), cut_append]
      dsimp only
      rw [ih]
      rfl
  intro depth
  cases depth with
  | zero =>
    unfold onPiece
    have : processOutput (lit "[NZB] MARK=BAD" ++ [10]) = some (.info, lit "[NZB] MARK=BAD") := by decide +kernel
    rw [this]
    rfl
  | succ depth =>
    have := mark_line s info depth i [] ⟨(fun q => nomatch q), (fun q => nomatch q)⟩ (Or.inl rfl) (by omega)
    rw [List.append_nil] at this
    rw [this, loop]
    rfl

/-- Finding: with a long name of the script and a short name of the entry the warning is read behind its end. -/
theorem mark_reads_behind (s : Script) (info : Bytes) (depth : Nat) (i : Item) (hd : s.display.length ≤ 1000) (h : i.name.length + 13 < s.display.length) :
    onPiece s info (depth + 2) i (lit "[NZB] MARK=BAD" ++ [10]) = .wild := by
  have := mark_line s info (depth + 1) i [] ⟨(fun q => nomatch q), (fun q => nomatch q)⟩ (Or.inl rfl) hd
  rw [List.append_nil] at this
  rw [this, addMessage, if_pos]
  · rfl
  · unfold printMessage marking Script.prefixLen
    dsimp only
    rw [List.length_take]
    simp only [List.length_append, show (lit "Marking ").length = 8 from rfl, show (lit " as bad").length = 7 from rfl]
    omega

example : (lit "Notify").length = 6 := rfl

/-! ### The status of scripts -/

theorem analyse_status (checked : Bool) (code : Int) : StatusOf checked code (analyse checked code).1 ∧
    ((analyse checked code).2.1 = true ↔ code = 92 ∧ checked = false) := by
  unfold analyse
  by_cases h1 : code = 93
  · rw [if_pos h1]; subst h1; exact ⟨.success, by simp⟩
  rw [if_neg h1]
  by_cases h2 : code = 94 ∨ code = -1
  · rw [if_pos h2]
    refine ⟨.failed _ h1 (by omega) (by omega), ?_⟩
    constructor
    · intro h; exact nomatch h
    · intro h; omega
  rw [if_neg h2]
  by_cases h3 : code = 95
  · rw [if_pos h3]; subst h3; exact ⟨.skipped, by simp⟩
  rw [if_neg h3]
  by_cases h4 : code = 92
  · rw [if_pos h4]; subst h4
    cases checked
    · exact ⟨.parCheck rfl, by simp⟩
    · exact ⟨.failed _ h1 h3 (fun _ => rfl), by simp⟩
  rw [if_neg h4]
  refine ⟨.failed _ h1 h3 (fun h => absurd h h4), ?_⟩
  constructor
  · intro h; exact nomatch h
  · intro h; exact absurd h.1 h4

theorem statusOf_unique {checked : Bool} {c : Int} {a b : Status} (h : StatusOf checked c a) (g : StatusOf checked c b) : a = b := by
  cases h <;> cases g <;> first | rfl | (exfalso; simp_all; done) | (exfalso; omega)

/-- The scripts up to the first one which asks for a par-check. -/
def upTo (checked : Bool) : List (Script × Run) → List (Script × Run)
  | [] => []
  | x :: xs => x :: if exitCode x.2.ends x.2.out = 92 ∧ checked = false then [] else upTo checked xs

theorem bind_done {α β : Type} {r : Res α} {f : α → Res β} {b : β} (h : r.bind f = .done b) : ∃ a, r = .done a ∧ f a = .done b := by
  cases r with
  | done a => exact ⟨a, rfl, h⟩
  | wild => exact nomatch h
  | endless => exact nomatch h

theorem execScript_done {depth : Nat} {s : Script} {r : Run} {p q : Post} (h : execScript depth s r p = .done q) :
    q.checked = p.checked ∧ ((s.post = false ∨ p.requested = true) ∧ q = p ∨
      (s.post = true ∧ p.requested = false) ∧ q.statuses = p.statuses ++ [(s.name, (analyse p.checked (exitCode r.ends r.out)).1)] ∧
        q.requested = (analyse p.checked (exitCode r.ends r.out)).2.1) := by
  unfold execScript at h
  by_cases g : s.post = false ∨ p.requested = true
  · rw [if_pos g] at h
    injection h with h
    subst h
    exact ⟨rfl, Or.inl ⟨g, rfl⟩⟩
  · rw [if_neg g] at h
    obtain ⟨i, _, h⟩ := bind_done h
    obtain ⟨j, _, h⟩ := bind_done h
    obtain ⟨k, _, h⟩ := bind_done h
    injection h with h
    subst h
    refine ⟨rfl, Or.inr ⟨?_, rfl, rfl⟩⟩
    cases hs : s.post <;> cases hr : p.requested <;> simp_all

/-- Which scripts are executed: the post-processing scripts which the entry has chosen, in the order of the scripts, up to the first one which
asks for a par-check; the status of each is the one of its exit code. -/
theorem execList_done (depth : Nat) (list : Bytes) : ∀ (l : List (Script × Run)) (p q : Post), execList depth list l p = .done q →
    (p.requested = true → q.statuses = p.statuses ∧ q.requested = true) ∧
    (p.requested = false →
      let ran := upTo p.checked (l.filter (fun x => (PpParam.names list).contains x.1.name && x.1.post))
      q.statuses = p.statuses ++ ran.map (fun x => (x.1.name, (analyse p.checked (exitCode x.2.ends x.2.out)).1)) ∧
      (q.requested = true ↔ ∃ x ∈ ran, Asks p.checked x)) := by
  intro l
  induction l with
  | nil =>
    intro p q h
    unfold execList at h
    injection h with h
    subst h
    exact ⟨fun h => ⟨rfl, h⟩, fun h => ⟨by simp [upTo], by rw [h]; simp [upTo]⟩⟩
  | cons x l ih =>
    obtain ⟨s, r⟩ := x
    intro p q h
    unfold execList at h
    obtain ⟨p1, h1, h2⟩ := bind_done h
    obtain ⟨i1, i2⟩ := ih p1 q h2
    by_cases hc : (PpParam.names list).contains s.name = true
    · rw [if_pos hc] at h1
      obtain ⟨e0, e⟩ := execScript_done h1
      rcases e with ⟨g, e⟩ | ⟨⟨gs, gr⟩, e1, e2⟩
      · subst e
        refine ⟨i1, fun hr => ?_⟩
        have hs : s.post = false := by rcases g with g | g; exact g; rw [hr] at g; exact nomatch g
        have := i2 hr
        rw [List.filter_cons, if_neg (by simp [hs])]
        exact this
      · obtain ⟨_, a2⟩ := analyse_status p.checked (exitCode r.ends r.out)
        refine ⟨fun hr => absurd hr (by rw [gr]; exact nofun), fun _ => ?_⟩
        rw [List.filter_cons, if_pos (by simp only [hc, gs, Bool.and_self])]
        dsimp only
        unfold upTo
        dsimp only
        by_cases ha : exitCode r.ends r.out = 92 ∧ p.checked = false
        · rw [if_pos ha]
          obtain ⟨j1, j2⟩ := i1 (e2.trans (a2.2 ha))
          rw [j1, e1]
          exact ⟨rfl, fun _ => ⟨(s, r), List.mem_singleton.2 rfl, ha⟩, fun _ => j2⟩
        · rw [if_neg ha]
          have hr1 : p1.requested = false := by
            rw [e2]
            cases hq : (analyse p.checked (exitCode r.ends r.out)).2.1 with
            | false => rfl
            | true => exact absurd (a2.1 hq) ha
          have := i2 hr1
          rw [e0] at this
          dsimp only at this
          obtain ⟨j1, j2⟩ := this
          rw [j1, e1]
          refine ⟨by rw [List.append_assoc]; rfl, ?_⟩
          rw [j2]
          constructor
          · rintro ⟨y, hy, hy2⟩; exact ⟨y, List.mem_cons_of_mem _ hy, hy2⟩
          · rintro ⟨y, hy, hy2⟩
            rcases List.mem_cons.1 hy with rfl | hy
            · exact absurd hy2 ha
            · exact ⟨y, hy, hy2⟩
    · rw [if_neg hc] at h1
      injection h1 with h1
      subst h1
      refine ⟨i1, fun hr => ?_⟩
      rw [List.filter_cons, if_neg (by simp only [Bool.and_eq_true, not_and]; exact fun q => absurd q hc)]
      exact i2 hr

/-! ### The scripts of an entry -/

theorem pieces_sep (sep : UInt8 → Bool) (c : UInt8) (hc : sep c = true) (s : Bytes) : ∀ (x cur : Bytes),
    Tokens.pieces sep cur (x ++ c :: s) = Tokens.pieces sep cur x ++ Tokens.pieces sep [] s := by
  intro x
  induction x with
  | nil => intro cur; rw [List.nil_append]; simp only [Tokens.pieces, hc, if_true]
  | cons b x ih =>
    intro cur
    rw [List.cons_append, Tokens.pieces, Tokens.pieces]
    by_cases hb : sep b = true
    · rw [if_pos hb, if_pos hb, ih, List.append_assoc]
    · rw [if_neg hb, if_neg hb, ih]

theorem names_sep (x s : Bytes) : PpParam.names (x ++ 44 :: s) = PpParam.names x ++ PpParam.names s := by
  unfold PpParam.names Tokens.tokens
  rw [pieces_sep _ 44 (by rfl), List.map_append, List.filter_append]

/-- A name without separators, and without blanks around it. -/
def Simple (n : Bytes) : Prop := n ≠ [] ∧ FeedFilter.trim n = n ∧ ∀ b ∈ n, b ≠ 44 ∧ b ≠ 59

theorem pieces_none (sep : UInt8 → Bool) (x : Bytes) (h : ∀ b ∈ x, sep b = false) : ∀ cur : Bytes, cur.reverse ++ x ≠ [] →
    Tokens.pieces sep cur x = [cur.reverse ++ x] := by
  induction x with
  | nil =>
    intro cur hc
    rw [Tokens.pieces, if_neg (by intro e; subst e; exact hc rfl), List.append_nil]
  | cons b x ih =>
    intro cur _
    rw [Tokens.pieces, if_neg (by rw [h b List.mem_cons_self]; exact nofun), ih (fun c hc => h c (List.mem_cons_of_mem _ hc)) _ (by simp)]
    simp

theorem names_simple (n : Bytes) (h : Simple n) : PpParam.names n = [n] := by
  unfold PpParam.names Tokens.tokens
  rw [pieces_none _ n (by intro b hb; have := h.2.2 b hb; simp [this.1, this.2]) [] (by simpa using h.1)]
  simp only [List.reverse_nil, List.nil_append, List.map_cons, List.map_nil, h.2.1, List.filter_cons, List.filter_nil]
  rw [if_pos]
  cases n with
  | nil => exact absurd rfl h.1
  | cons => rfl

/-- The parameter chooses a script. -/
def active (p : Bytes × Bytes) : Prop := p.1 ≠ [] ∧ p.1.head? ≠ some 42 ∧ p.1.getLast? = some 58 ∧ QueueScript.isOn p.2 = true

instance (p : Bytes × Bytes) : Decidable (active p) := by unfold active; infer_instance

theorem mem_wanted (n : Bytes) : ∀ ps : Params, n ∈ PpParam.names (wanted ps) ↔ ∃ p ∈ ps, active p ∧ n ∈ PpParam.names p.1.dropLast := by
  intro ps
  induction ps with
  | nil => simp [wanted, PpParam.names, Tokens.tokens, Tokens.pieces]
  | cons p ps ih =>
    have e : wanted (p :: ps) = (if active p then p.1.dropLast ++ [44] else []) ++ wanted ps := rfl
    rw [e]
    by_cases h : active p
    · rw [if_pos h, List.append_assoc, List.singleton_append, names_sep, List.mem_append, ih]
      constructor
      · rintro (k | ⟨q, hq, k⟩)
        · exact ⟨p, List.mem_cons_self, h, k⟩
        · exact ⟨q, List.mem_cons_of_mem _ hq, k⟩
      · rintro ⟨q, hq, k1, k2⟩
        rcases List.mem_cons.1 hq with rfl | hq
        · exact Or.inl k2
        · exact Or.inr ⟨q, hq, k1, k2⟩
    · rw [if_neg h, List.nil_append, ih]
      constructor
      · rintro ⟨q, hq, k⟩; exact ⟨q, List.mem_cons_of_mem _ hq, k⟩
      · rintro ⟨q, hq, k1, k2⟩
        rcases List.mem_cons.1 hq with rfl | hq
        · exact absurd k1 h
        · exact ⟨q, hq, k1, k2⟩

/-- An entry has chosen the scripts for which it has a parameter `name:` with yes, on or 1. -/
theorem chosen_iff (ps : Params) (hp : ∀ p ∈ ps, active p → Simple p.1.dropLast) (n : Bytes) (hn : n ≠ []) (hs : n.head? ≠ some 42) :
    n ∈ PpParam.names (wanted ps) ↔ Assigned ps n := by
  rw [mem_wanted]
  constructor
  · rintro ⟨p, hp1, ha, hm⟩
    rw [names_simple _ (hp p hp1 ha), List.mem_singleton] at hm
    refine ⟨p.2, ?_, (QueueScript.isOn_iff _).1 ha.2.2.2⟩
    have : n ++ [58] = p.1 := by
      rw [hm]
      have hl := ha.2.2.1
      rw [List.getLast?_eq_some_getLast ha.1] at hl
      injection hl with hl
      rw [← hl]
      exact List.dropLast_concat_getLast ha.1
    rw [this]
    exact hp1
  · rintro ⟨v, hm, hv⟩
    have ha : active (n ++ [58], v) := by
      refine ⟨by simp, ?_, by simp, (QueueScript.isOn_iff _).2 hv⟩
      cases n with
      | nil => exact absurd rfl hn
      | cons b n => exact hs
    refine ⟨_, hm, ha, ?_⟩
    have := names_simple _ (hp _ hm ha)
    simp only [List.dropLast_concat] at this ⊢
    rw [this]
    exact List.mem_singleton.2 rfl

/-- C120: after the stage of scripts, exactly these scripts were executed. -/
theorem scripts_run (depth : Nat) (scripts : List (Script × Run)) (i : Item) (checked : Bool) (p : Post) (h : runAll depth scripts i checked = .done p)
    (hp : ∀ q ∈ i.params, active q → Simple q.1.dropLast) (hn : ∀ x ∈ scripts, x.1.name ≠ [] ∧ x.1.name.head? ≠ some 42) :
    ∃ chosen, (∀ x, x ∈ chosen ↔ x ∈ scripts ∧ x.1.post = true ∧ Assigned i.params x.1.name) ∧ chosen.Sublist scripts ∧
      p.statuses.map (·.1) = (upTo checked chosen).map (·.1.name) ∧
      (∀ y ∈ (upTo checked chosen).zip p.statuses, StatusOf checked (exitCode y.1.2.ends y.1.2.out) y.2.2) ∧
      (p.requested = true ↔ ∃ x ∈ upTo checked chosen, Asks checked x) := by
  obtain ⟨_, h2⟩ := execList_done depth _ scripts _ p h
  obtain ⟨j1, j2⟩ := h2 rfl
  refine ⟨_, ?_, List.filter_sublist, ?_, ?_, j2⟩
  · intro x
    rw [List.mem_filter, Bool.and_eq_true, List.contains_iff_mem]
    constructor
    · rintro ⟨h1, h2, h3⟩
      exact ⟨h1, h3, (chosen_iff _ hp _ (hn x h1).1 (hn x h1).2).1 h2⟩
    · rintro ⟨h1, h2, h3⟩
      exact ⟨h1, (chosen_iff _ hp _ (hn x h1).1 (hn x h1).2).2 h3, h2⟩
  · rw [j1, List.nil_append, List.map_map]
    rfl
  · rw [j1, List.nil_append]
    intro y hy
    rw [List.zip_map_right, List.mem_map] at hy
    obtain ⟨⟨a, b⟩, hab, rfl⟩ := hy
    have : a = b := by
      have := List.of_mem_zip hab
      clear this
      generalize upTo checked _ = l at hab
      induction l with
      | nil => exact nomatch hab
      | cons c l ih =>
        rw [List.zip_cons_cons] at hab
        rcases List.mem_cons.1 hab with k | k
        · injection k with k1 k2; rw [k1, k2]
        · exact ih k
    subst this
    exact (analyse_status _ _).1

/-- Two of three scripts are chosen; the first one says a line and asks for a par-check, the second one is then not executed. -/
def exScripts : List (Script × Run) :=
  [(⟨lit "Check.py", lit "Check", true⟩, ⟨lit "[DETAIL] done\n[NZB] NZBPR_x=1\n", .exited 92⟩),
   (⟨lit "EMail.py", lit "EMail", true⟩, ⟨[], .exited 93⟩), (⟨lit "Other.py", lit "Other", true⟩, ⟨[], .exited 93⟩)]

def exItem : Item := ⟨lit "Movie", [], lit "/dst", [(lit "Check.py:", lit "yes"), (lit "EMail.py:", lit "ON")], false, []⟩

def exDone (checked : Bool) : Option (List (Bytes × Status) × Bool × Params × Nat) :=
  match runAll 3 exScripts exItem checked with
  | .done p => some (p.statuses, p.requested, p.item.params.drop 2, p.item.log.length)
  | _ => none

example : exDone false = some ([(lit "Check.py", .success)], true, [(lit "x", lit "1")], 3) := by rfl

example : exDone true = some ([(lit "Check.py", .failure), (lit "EMail.py", .success)], false, [(lit "x", lit "1")], 5) := by rfl

example : ∀ q ∈ exItem.params, active q → Simple q.1.dropLast := by
  intro q hq _
  rcases List.mem_cons.1 hq with rfl | hq
  · unfold Simple; decide +kernel
  · rw [List.mem_singleton.1 hq]; unfold Simple; decide +kernel

/-- After a request for a par-check no further script is executed; the others are executed all. -/
theorem upTo_spec (checked : Bool) (l : List (Script × Run)) : upTo checked l <+: l ∧ ((∀ x ∈ l, ¬ Asks checked x) → upTo checked l = l) ∧
    (∀ a x b, l = a ++ x :: b → (∀ y ∈ a, ¬ Asks checked y) → Asks checked x → upTo checked l = a ++ [x]) := by
  induction l with
  | nil => exact ⟨List.prefix_refl _, fun _ => rfl, fun a x b h => by simp at h⟩
  | cons c l ih =>
    obtain ⟨i1, i2, i3⟩ := ih
    unfold upTo
    by_cases h : exitCode c.2.ends c.2.out = 92 ∧ checked = false
    · rw [if_pos h]
      refine ⟨⟨l, rfl⟩, fun k => absurd h (k c List.mem_cons_self), ?_⟩
      intro a x b e ha _
      cases a with
      | nil => injection e with e1 e2; rw [e1]; rfl
      | cons y a => injection e with e1 e2; subst e1; exact absurd h (ha c List.mem_cons_self)
    · rw [if_neg h]
      refine ⟨List.cons_prefix_cons.2 ⟨rfl, i1⟩, fun k => by rw [i2 (fun x hx => k x (List.mem_cons_of_mem _ hx))], ?_⟩
      intro a x b e ha hx
      cases a with
      | nil => injection e with e1 e2; subst e1; exact absurd hx h
      | cons y a =>
        injection e with e1 e2
        subst e1
        rw [i3 a x b e2 (fun z hz => ha z (List.mem_cons_of_mem _ hz)) hx]
        rfl

/-- Finding: a script with a comma or a semicolon in its name is never executed. -/
theorem comma_never_run (list : Bytes) (n : Bytes) (h : (44 : UInt8) ∈ n ∨ (59 : UInt8) ∈ n) : n ∉ PpParam.names list := by
  intro hm
  unfold PpParam.names at hm
  rw [Tokens.mem_tokens] at hm
  obtain ⟨w, hw, ht, _⟩ := hm
  obtain ⟨a, b, _, _, hs, _⟩ := hw
  have sub : ∀ c ∈ n, c ∈ w := by
    obtain ⟨x, y, e, _⟩ := ht
    intro c hc
    rw [e]
    exact List.mem_append_left _ (List.mem_append_right _ hc)
  rcases h with h | h
  · exact hs _ (sub _ h) (by rfl)
  · exact hs _ (sub _ h) (by rfl)

/-- The total status: failure if any script has failed, otherwise success if any was successful. -/
theorem total_status (l : List Status) : (total l = .failure ↔ .failure ∈ l) ∧ (total l = .success ↔ .success ∈ l ∧ .failure ∉ l) ∧
    (total l = .none ↔ ∀ x ∈ l, x = .none) := by
  have key : ∀ (l : List Status) (st : Status), let r := l.foldl (fun st x => if (x = .success ∧ st = .none) ∨ x = .failure then x else st) st
      (r = .failure ↔ st = .failure ∨ .failure ∈ l) ∧ (r = .success ↔ (st = .success ∨ (st = .none ∧ .success ∈ l)) ∧ .failure ∉ l) ∧
      (r = .none ↔ st = .none ∧ ∀ x ∈ l, x = .none) := by
    intro l
    induction l with
    | nil => intro st; cases st <;> simp
    | cons x l ih =>
      intro st
      have := ih (if (x = .success ∧ st = .none) ∨ x = .failure then x else st)
      dsimp only at this ⊢
      rw [List.foldl_cons]
      obtain ⟨a, b, c⟩ := this
      rw [a, b, c]
      cases x <;> cases st <;> simp
  obtain ⟨a, b, c⟩ := key l .none
  unfold total
  refine ⟨by rw [a]; simp, by rw [b]; simp, by rw [c]; simp⟩

/-- A script which is ended by a signal has failed. -/
theorem killed_failed (checked : Bool) (out : Bytes) : StatusOf checked (exitCode .killed out) .failure ∧
    StatusOf checked (exitCode .notStarted out) .failure :=
  ⟨.failed 0 (by decide) (by decide) (fun h => absurd h (by decide)), .failed (-1) (by decide) (by decide) (fun h => absurd h (by decide))⟩

/-! ### The environment -/

theorem upper_cases (b : UInt8) : ¬ (97 ≤ (upper b).toNat ∧ (upper b).toNat ≤ 122) := by
  unfold upper
  by_cases h : 97 ≤ b.toNat ∧ b.toNat ≤ 122
  · rw [if_pos h]
    have : (b - 32).toNat = b.toNat - 32 := UInt8.toNat_sub_of_le b 32 (by
      rw [UInt8.le_iff_toNat_le]; show 32 ≤ b.toNat; omega)
    rw [this]; omega
  · rw [if_neg h]; exact h

/-- The second name of a variable has neither special characters nor small letters. -/
theorem norm_name (b : UInt8) : special (norm b) = false ∧ ¬ (97 ≤ (norm b).toNat ∧ (norm b).toNat ≤ 122) := by
  refine ⟨?_, upper_cases _⟩
  have : ∀ n : Fin 256, special (norm (UInt8.ofNat n.val)) = false := by decide +kernel
  have h := this ⟨b.toNat, b.toNat_lt⟩
  simpa using h

/-- It has only capital letters, digits, "_" and characters which are neither letters nor in the list of Script.cpp:226; the
point of the names of options, such as "Server1.Host", becomes "_". -/
theorem norm_spec (b : UInt8) :
    norm b = if b ∈ [46, 58, 42, 33, 34, 36, 37, 38, 47, 40, 41, 61, 96, 43, 126, 35, 39, 123, 125, 91, 93, 64, 45, 32] then 95
      else if 97 ≤ b.toNat ∧ b.toNat ≤ 122 then b - 32 else b := by
  have : ∀ n : Fin 256, norm (UInt8.ofNat n.val) =
      if UInt8.ofNat n.val ∈ [46, 58, 42, 33, 34, 36, 37, 38, 47, 40, 41, 61, 96, 43, 126, 35, 39, 123, 125, 91, 93, 64, 45, 32] then 95
      else if 97 ≤ (UInt8.ofNat n.val).toNat ∧ (UInt8.ofNat n.val).toNat ≤ 122 then UInt8.ofNat n.val - 32 else UInt8.ofNat n.val := by
    decide +kernel
  have h := this ⟨b.toNat, b.toNat_lt⟩
  simpa using h

theorem mem_vars {pre n v : Bytes} {l : List (Bytes × Bytes)} (h : (n, v) ∈ l) (hn : pre.length + 1 + n.length ≤ 1023) :
    pre ++ lit "_" ++ n ++ lit "=" ++ v ∈ vars pre l ∧ (pre ++ lit "_" ++ n).map norm ++ lit "=" ++ v ∈ vars pre l := by
  have e : (pre ++ lit "_" ++ n).take 1023 = pre ++ lit "_" ++ n := List.take_of_length_le (by
    rw [List.length_append, List.length_append, show (lit "_").length = 1 from rfl]; exact hn)
  unfold vars
  constructor
  · rw [List.mem_flatMap]
    refine ⟨_, h, ?_⟩
    unfold setSpecial
    dsimp only
    rw [e]
    exact List.mem_cons_self
  · rw [List.mem_flatMap]
    refine ⟨_, h, ?_⟩
    unfold setSpecial
    dsimp only
    rw [e]
    by_cases g : pre ++ lit "_" ++ n = (pre ++ lit "_" ++ n).map norm
    · rw [← g]; exact List.mem_cons_self
    · rw [if_pos g]; exact List.mem_cons_of_mem _ (List.mem_singleton.2 rfl)

theorem mem_stripped {pre n v : Bytes} {l : List (Bytes × Bytes)} : (n, v) ∈ stripped pre l ↔ n ≠ [] ∧ (pre ++ n, v) ∈ l := by
  unfold stripped
  rw [List.mem_filterMap]
  constructor
  · rintro ⟨p, hp, h⟩
    by_cases g : startsWith pre p.1 = true ∧ pre.length < p.1.length
    · rw [if_pos g] at h
      injection h with h
      injection h with h1 h2
      obtain ⟨g1, g2⟩ := g
      unfold startsWith at g1
      rw [List.isPrefixOf_iff_prefix] at g1
      obtain ⟨r, e⟩ := g1
      rw [← e, List.drop_left] at h1
      subst h1 h2
      refine ⟨?_, ?_⟩
      · intro k; rw [k, List.append_nil] at e; rw [e] at g2; omega
      · rw [e]; exact hp
    · rw [if_neg g] at h; exact nomatch h
  · rintro ⟨hn, hm⟩
    refine ⟨_, hm, ?_⟩
    dsimp only
    rw [if_pos ⟨startsWith_append _ _, by rw [List.length_append]; have := List.length_pos_iff.2 hn; omega⟩, List.drop_left]

/-- C120: a script finds the parameters of the entry and its own settings and all options in its environment, each under its name and under its name
with capital letters. -/
theorem environment_complete (parent own : List Bytes) (params opts : List (Bytes × Bytes)) (script n v : Bytes) (hs : script.length < 1000)
    (hn : n.length ≤ 1000) :
    let env := environment parent own params opts script
    let Has := fun w : String => (lit w ++ n ++ lit "=" ++ v ∈ env ∧ (lit w ++ n).map norm ++ lit "=" ++ v ∈ env)
    ((n, v) ∈ params → Has "NZBPR_") ∧ ((n, v) ∈ opts → Has "NZBOP_") ∧
    (n ≠ [] → (script ++ lit ":" ++ n, v) ∈ params → Has "NZBPR_") ∧ (n ≠ [] → (script ++ lit ":" ++ n, v) ∈ opts → Has "NZBPO_") := by
  dsimp only
  have hp : PpParam.paramName script = script ++ lit ":" := PpParam.param_of_script script (by omega)
  unfold environment
  rw [hp]
  have five : ∀ w ∈ [lit "NZBPR", lit "NZBPO", lit "NZBOP"], w.length + 1 + n.length ≤ 1023 := by
    intro w hw
    have : w.length = 5 := by
      rcases List.mem_cons.1 hw with rfl | hw
      · rfl
      · rcases List.mem_cons.1 hw with rfl | hw
        · rfl
        · rw [List.mem_singleton.1 hw]; rfl
    omega
  refine ⟨fun h => ?_, fun h => ?_, fun h0 h => ?_, fun h0 h => ?_⟩
  · obtain ⟨a, b⟩ := mem_vars (pre := lit "NZBPR") h (five _ (by simp))
    exact ⟨List.mem_append_left _ (List.mem_append_left _ (List.mem_append_left _ (List.mem_append_right _ a))),
      List.mem_append_left _ (List.mem_append_left _ (List.mem_append_left _ (List.mem_append_right _ b)))⟩
  · obtain ⟨a, b⟩ := mem_vars (pre := lit "NZBOP") h (five _ (by simp))
    exact ⟨List.mem_append_right _ a, List.mem_append_right _ b⟩
  · obtain ⟨a, b⟩ := mem_vars (pre := lit "NZBPR") (mem_stripped.2 ⟨h0, h⟩) (five _ (by simp))
    exact ⟨List.mem_append_left _ (List.mem_append_left _ (List.mem_append_right _ a)),
      List.mem_append_left _ (List.mem_append_left _ (List.mem_append_right _ b))⟩
  · obtain ⟨a, b⟩ := mem_vars (pre := lit "NZBPO") (mem_stripped.2 ⟨h0, h⟩) (five _ (by simp))
    exact ⟨List.mem_append_left _ (List.mem_append_right _ a), List.mem_append_left _ (List.mem_append_right _ b)⟩

/-- A variable as the program makes it of a setting: the name, cut to 1023 bytes, as it is or with capital letters. -/
def Of (w : String) (n v x : Bytes) : Prop := x = (lit w ++ n).take 1023 ++ lit "=" ++ v ∨ x = ((lit w ++ n).take 1023).map norm ++ lit "=" ++ v

theorem vars_of {w : String} {pre : Bytes} (hw : lit w = pre ++ lit "_") {l : List (Bytes × Bytes)} {x : Bytes} (h : x ∈ vars pre l) :
    ∃ n v, (n, v) ∈ l ∧ Of w n v x := by
  unfold vars at h
  rw [List.mem_flatMap] at h
  obtain ⟨⟨n, v⟩, hm, hx⟩ := h
  refine ⟨n, v, hm, ?_⟩
  unfold Of
  rw [hw]
  unfold setSpecial at hx
  dsimp only at hx
  rcases List.mem_cons.1 hx with hx | hx
  · exact Or.inl hx
  · by_cases g : (pre ++ lit "_" ++ n).take 1023 ≠ ((pre ++ lit "_" ++ n).take 1023).map norm
    · rw [if_pos g] at hx; exact Or.inr (List.mem_singleton.1 hx)
    · rw [if_neg g] at hx; exact nomatch hx

/-- C120: a variable in the environment is one of the program's own environment, which is not one of those made for scripts, one of the kind of
script, or made of a parameter of the entry, of a setting of this script or of an option. -/
theorem environment_only (parent own : List Bytes) (params opts : List (Bytes × Bytes)) (script x : Bytes) (hs : script.length < 1000)
    (h : x ∈ environment parent own params opts script) :
    (x ∈ parent ∧ ¬ ∃ a b r, x = lit "NZB" ++ [a, b] ++ lit "_" ++ r) ∨ x ∈ own ∨
    (∃ n v, ((n, v) ∈ params ∨ (n ≠ [] ∧ (script ++ lit ":" ++ n, v) ∈ params)) ∧ Of "NZBPR_" n v x) ∨
    (∃ n v, n ≠ [] ∧ (script ++ lit ":" ++ n, v) ∈ opts ∧ Of "NZBPO_" n v x) ∨ (∃ n v, (n, v) ∈ opts ∧ Of "NZBOP_" n v x) := by
  have hp : PpParam.paramName script = script ++ lit ":" := PpParam.param_of_script script (by omega)
  unfold environment at h
  rw [hp] at h
  rcases List.mem_append.1 h with h | h
  · rcases List.mem_append.1 h with h | h
    · rcases List.mem_append.1 h with h | h
      · rcases List.mem_append.1 h with h | h
        · rcases List.mem_append.1 h with h | h
          · left
            unfold inherited at h
            rw [List.mem_filter] at h
            refine ⟨h.1, ?_⟩
            rintro ⟨a, b, r, rfl⟩
            have := h.2
            revert this
            simp [lit, startsWith]
          · exact Or.inr (Or.inl h)
        · obtain ⟨n, v, hm, ho⟩ := vars_of (w := "NZBPR_") (by rfl) h
          exact Or.inr (Or.inr (Or.inl ⟨n, v, Or.inl hm, ho⟩))
      · obtain ⟨n, v, hm, ho⟩ := vars_of (w := "NZBPR_") (by rfl) h
        exact Or.inr (Or.inr (Or.inl ⟨n, v, Or.inr (mem_stripped.1 hm), ho⟩))
    · obtain ⟨n, v, hm, ho⟩ := vars_of (w := "NZBPO_") (by rfl) h
      obtain ⟨m1, m2⟩ := mem_stripped.1 hm
      exact Or.inr (Or.inr (Or.inr (Or.inl ⟨n, v, m1, m2, ho⟩)))
  · obtain ⟨n, v, hm, ho⟩ := vars_of (w := "NZBOP_") (by rfl) h
    exact Or.inr (Or.inr (Or.inr (Or.inr ⟨n, v, hm, ho⟩)))

/-! ### Shells -/

/-- The extension of a path: from its last point on. -/
theorem extension_spec (a e : Bytes) (he : (46 : UInt8) ∉ e) : extension (a ++ 46 :: e) = some (46 :: e) := by
  unfold extension
  rw [if_pos (by rw [List.contains_iff_mem]; simp), List.reverse_append, List.reverse_cons, List.append_assoc, List.singleton_append]
  have : ∀ r s : Bytes, (46 : UInt8) ∉ r → (r ++ 46 :: s).takeWhile (· ≠ 46) = r := by
    intro r s
    induction r with
    | nil => intro _; rfl
    | cons c r ih =>
      intro h
      rw [List.mem_cons, not_or] at h
      have hc : decide (c ≠ 46) = true := decide_eq_true (fun e => h.1 e.symm)
      rw [List.cons_append, List.takeWhile_cons, if_pos hc, ih h.2]
  rw [this _ _ (by rw [List.mem_reverse]; exact he), List.reverse_reverse]

/-- An entry of the option ShellOverride. -/
def entry (e cmd : Bytes) : Bytes := e ++ lit "=" ++ cmd

/-- The first entry for the extension decides which program runs the script. -/
theorem shell_override (path opt a e e' cmd : Bytes) (before after : List Bytes) (hp : path = a ++ 46 :: e) (he : (46 : UInt8) ∉ e)
    (ho : PpParam.names opt = before ++ entry e' cmd :: after) (hb : ∀ t ∈ before, ∀ f c, t = entry f c → (61 : UInt8) ∉ f → ¬ OptStore.Same (46 :: e) f)
    (h1 : (61 : UInt8) ∉ e') (h2 : OptStore.Same (46 :: e) e') : prepareArgs opt [path] = some [cmd, path] := by
  have hne : opt ≠ [] := by
    intro h; subst h
    have hz : PpParam.names [] = [] := rfl
    rw [hz] at ho
    cases before <;> exact nomatch ho
  have hx := extension_spec a e he
  rw [← hp] at hx
  have key : ∀ before : List Bytes, (∀ t ∈ before, ∀ f c, t = entry f c → (61 : UInt8) ∉ f → ¬ OptStore.Same (46 :: e) f) →
      overrideLoop path (before ++ entry e' cmd :: after) = some [cmd, path] := by
    intro before
    induction before with
    | nil =>
      intro _
      obtain ⟨t1, t2⟩ := takeWhile_name e' cmd h1
      rw [List.nil_append, overrideLoop, if_pos (by rw [List.contains_iff_mem]; simp [entry, lit]), hx]
      dsimp only
      unfold entry
      rw [t1, t2, if_pos ((QueueScript.same_bool _ _).2 h2)]
    | cons t before ih =>
      intro hb
      have ih := ih (fun t ht => hb t (List.mem_cons_of_mem _ ht))
      rw [List.cons_append, overrideLoop]
      by_cases hc : t.contains 61 = true
      · rw [if_pos hc, hx]
        dsimp only
        rw [if_neg, ih]
        rw [List.contains_iff_mem] at hc
        intro hq
        rw [QueueScript.same_bool] at hq
        have split : ∀ t : Bytes, (61 : UInt8) ∈ t → t = entry (t.takeWhile (· ≠ 61)) ((t.dropWhile (· ≠ 61)).drop 1) := by
          intro t
          induction t with
          | nil => intro h; exact nomatch h
          | cons b t it =>
            intro h
            by_cases hb : b = 61
            · subst hb; rfl
            · rcases List.mem_cons.1 h with h | h
              · exact absurd h.symm hb
              · rw [List.takeWhile_cons, if_pos (decide_eq_true hb), List.dropWhile_cons, if_pos (decide_eq_true hb)]
                unfold entry at it ⊢
                rw [List.cons_append, List.cons_append, ← it h]
        refine hb t List.mem_cons_self _ _ (split t hc) ?_ hq
        intro hm
        have none : ∀ t : Bytes, (61 : UInt8) ∉ t.takeWhile (· ≠ 61) := by
          intro t
          induction t with
          | nil => exact fun h => nomatch h
          | cons b t it =>
            by_cases hb : b = 61
            · subst hb; exact fun h => nomatch h
            · rw [List.takeWhile_cons, if_pos (decide_eq_true hb), List.mem_cons, not_or]
              exact ⟨fun e => hb e.symm, it⟩
        exact none t hm
      · rw [if_neg hc, ih]
  unfold prepareArgs
  dsimp only
  rw [if_neg hne, ho]
  exact key before hb

/-- Without an entry for the extension the script is run directly. -/
theorem shell_default (path a e : Bytes) (opt : Bytes) (hp : path = a ++ 46 :: e) (he : (46 : UInt8) ∉ e)
    (hb : ∀ t ∈ PpParam.names opt, ¬ OptStore.Same (46 :: e) (t.takeWhile (· ≠ 61))) : prepareArgs opt [path] = some [path] := by
  have hx := extension_spec a e he
  rw [← hp] at hx
  unfold prepareArgs
  dsimp only
  by_cases h : opt = []
  · rw [if_pos h]
  · rw [if_neg h]
    generalize PpParam.names opt = l at hb
    induction l with
    | nil => rfl
    | cons t l ih =>
      have ih := ih (fun t ht => hb t (List.mem_cons_of_mem _ ht))
      rw [overrideLoop]
      by_cases hc : t.contains 61 = true
      · rw [if_pos hc, hx]
        dsimp only
        rw [if_neg, ih]
        rw [QueueScript.same_bool]
        exact hb t List.mem_cons_self
      · rw [if_neg hc, ih]

/-- Finding: with any entry in the option ShellOverride a script without a point in its path makes the program read from a null pointer. -/
theorem no_extension_crash (path opt : Bytes) (hp : (46 : UInt8) ∉ path) (ho : ∃ t ∈ PpParam.names opt, (61 : UInt8) ∈ t) : prepareArgs opt [path] = none := by
  have hx : extension path = none := by
    unfold extension
    rw [if_neg (by rw [List.contains_iff_mem]; exact hp)]
  have hne : opt ≠ [] := by
    intro h; subst h
    obtain ⟨t, ht, _⟩ := ho
    have hz : PpParam.names [] = [] := rfl
    rw [hz] at ht
    exact nomatch ht
  unfold prepareArgs
  dsimp only
  rw [if_neg hne]
  generalize PpParam.names opt = l at ho
  induction l with
  | nil => obtain ⟨t, ht, _⟩ := ho; exact nomatch ht
  | cons t l ih =>
    rw [overrideLoop]
    by_cases hc : t.contains 61 = true
    · rw [if_pos hc, hx]
    · rw [if_neg hc, ih]
      obtain ⟨u, hu, h61⟩ := ho
      rcases List.mem_cons.1 hu with rfl | hu
      · exact absurd (List.contains_iff_mem.2 h61) hc
      · exact ⟨u, hu, h61⟩

example : prepareArgs (lit ".py=/usr/bin/python3;.sh=/bin/bash") [lit "/scripts/Notify"] = none :=
  no_extension_crash _ _ (by decide +kernel) ⟨lit ".py=/usr/bin/python3", by decide +kernel, by decide +kernel⟩

example : prepareArgs (lit ".py=/usr/bin/python3;.sh=/bin/bash") [lit "/scripts/Run.SH"] = some [lit "/bin/bash", lit "/scripts/Run.SH"] := by decide +kernel

/-- Arguments of a command which has already some are passed as they are. -/
theorem args_unchanged (opt : Bytes) (args : List Bytes) (h : args.length ≠ 1) : prepareArgs opt args = some args := by
  unfold prepareArgs
  split
  · exact absurd rfl h
  · rfl

example : prepareArgs (lit ".py=/usr/bin/python3") [lit "unrar", lit "x", lit "a.py"] = some [lit "unrar", lit "x", lit "a.py"] :=
  args_unchanged _ _ (by decide)

end Verif.ScriptRun
