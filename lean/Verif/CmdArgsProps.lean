import Verif.CmdArgs
import Verif.RpcParamProps
import Verif.TaskTimeProps
/-
What the command line means (C132).
-/
namespace Verif.CmdArgs
open CStr

/-! ### Specification -/

/-- Switches which only tell how the program finds its settings. -/
inductive Setup
  | config (file : Bytes)
  | option (o : Bytes)
  | noConfig

/-- Their words. -/
def Setup.words : Setup → List Bytes
  | .config f => [lit "-c", f]
  | .option o => [lit "-o", o]
  | .noConfig => [lit "-n"]

def setupWords : List Setup → List Bytes
  | [] => []
  | s :: l => s.words ++ setupWords l

/-- What they change. -/
def Setup.effect (c : Cmd) : Setup → Cmd
  | .config f => { c with config := some f }
  | .option o => { c with options := c.options ++ [o] }
  | .noConfig => { c with config := none, noConfig := true }

def settings : Cmd → List Setup → Cmd
  | c, [] => c
  | c, s :: l => settings (s.effect c) l

/-- A word which is no switch. -/
def Plain (w : Bytes) : Prop := w.head? ≠ some 45

instance (w : Bytes) : Decidable (Plain w) := inferInstanceAs (Decidable (_ ≠ _))

/-- What an action works on. -/
inductive Target | files | groups | postJobs | history
  deriving DecidableEq, Repr

/-- The target of an action (by its name in DownloadInfo.h). -/
def Action.target : Action → Target
  | .fileMoveOffset | .fileMoveTop | .fileMoveBottom | .filePause | .fileResume | .fileDelete | .filePauseAllPars
  | .filePauseExtraPars | .fileSplit => .files
  | .groupMoveOffset | .groupMoveTop | .groupMoveBottom | .groupPause | .groupResume | .groupDelete
  | .groupParkDelete | .groupPauseAllPars | .groupPauseExtraPars | .groupSetPriority | .groupSetCategory
  | .groupApplyCategory | .groupMerge | .groupSetParameter | .groupSetName | .groupSortFiles => .groups
  | .postDelete => .postJobs
  | .historyDelete | .historyReturn | .historyProcess | .historyRedownload | .historyRetryFailed
  | .historySetParameter | .historyMarkBad | .historyMarkGood | .historyMarkSuccess => .history

/-- The word which chooses what is edited, with the way the operands are read. -/
def targetWords : List (String × Target × Match) :=
  [("F", .files, .id), ("FN", .files, .name), ("FR", .files, .regEx),
   ("G", .groups, .id), ("GN", .groups, .name), ("GR", .groups, .regEx),
   ("O", .postJobs, .id), ("H", .history, .id)]

/-- The actions without a text as the usage describes them (CommandLineParser.cpp:773-804). -/
def manual : List (Target × String × Action) :=
  [(.files, "T", .fileMoveTop), (.files, "B", .fileMoveBottom), (.files, "D", .fileDelete), (.files, "P", .filePause),
   (.files, "U", .fileResume),
   (.groups, "T", .groupMoveTop), (.groups, "B", .groupMoveBottom), (.groups, "D", .groupDelete),
   (.groups, "P", .groupPause), (.groups, "U", .groupResume), (.groups, "A", .groupPauseAllPars),
   (.groups, "R", .groupPauseExtraPars), (.groups, "DP", .groupParkDelete), (.groups, "M", .groupMerge),
   (.groups, "SF", .groupSortFiles),
   (.postJobs, "D", .postDelete),
   (.history, "D", .historyDelete), (.history, "P", .historyProcess), (.history, "R", .historyReturn),
   (.history, "A", .historyRedownload), (.history, "F", .historyRetryFailed), (.history, "B", .historyMarkBad),
   (.history, "G", .historyMarkGood), (.history, "S", .historyMarkSuccess)]

/-- The actions with a text; the last member tells which texts are good. -/
def manualText : List (Target × String × Action × (Bytes → Bool)) :=
  [(.files, "S", .fileSplit, fun _ => true),
   (.groups, "I", .groupSetPriority, fun v => OptStore.intOf v != 0 || v == lit "0"),
   (.groups, "C", .groupSetCategory, fun _ => true), (.groups, "CP", .groupApplyCategory, fun _ => true),
   (.groups, "N", .groupSetName, fun _ => true), (.groups, "O", .groupSetParameter, fun v => v.contains 61),
   (.history, "O", .historySetParameter, fun v => v.contains 61)]

/-- The command for the server which edits: action, text, ids or names. -/
def editing (c : Cmd) (m : Match) (a : Action) (text : Option Bytes) (offset : Int) (ops : List Bytes) : Outcome :=
  let c := { c with op := .edit, mode := m, action := some a, text := text, offset := offset }
  if ops = [] then .run c
  else if m = .id then
    match parseIds ops with
    | some ids => .run { c with ids := ids }
    | none => .error
  else .run { c with names := ops }

/-- An entry in a list of ids. -/
inductive Entry
  | one (n : Nat)
  | range (a b : Nat)

def Entry.text : Entry → Bytes
  | .one n => dec n
  | .range a b => dec a ++ 45 :: dec b

/-- A positive number which fits in 31 bits. -/
def Id (n : Nat) : Prop := 1 ≤ n ∧ n < 2 ^ 31

def Entry.Ok : Entry → Prop
  | .one n => Id n
  | .range a b => Id a ∧ Id b

/-- The ids of an entry in their order. -/
def Entry.ids : Entry → List Int
  | .one n => [(n : Int)]
  | .range a b =>
    if a ≤ b then (List.range' a (b + 1 - a)).map Int.ofNat
    else ((List.range' b (a + 1 - b)).map Int.ofNat).reverse

/-- An id which an entry names. -/
def Entry.Names : Entry → Int → Prop
  | .one n, x => x = n
  | .range a b, x => ((a : Int) ≤ x ∧ x ≤ b) ∨ ((b : Int) ≤ x ∧ x ≤ a)

/-- Entries with commas between them. -/
def listText : List Entry → Bytes
  | [] => []
  | [e] => e.text
  | e :: l => e.text ++ 44 :: listText l

/-- An option of -A. -/
inductive AddOpt
  | top | paused
  | priority (i : Int) | category (b : Bytes) | name (b : Bytes)
  | dupeKey (b : Bytes) | dupeScore (i : Int) | dupeMode (m : DupeMode)

def dupeModeText : DupeMode → Bytes
  | .score => lit "score"
  | .all => lit "all"
  | .force => lit "force"

def AddOpt.words : AddOpt → List Bytes
  | .top => [lit "T"]
  | .paused => [lit "P"]
  | .priority i => [lit "I", decInt i]
  | .category b => [lit "C", b]
  | .name b => [lit "N", b]
  | .dupeKey b => [lit "DK", b]
  | .dupeScore i => [lit "DS", decInt i]
  | .dupeMode m => [lit "DM", dupeModeText m]

def addWords : List AddOpt → List Bytes
  | [] => []
  | o :: l => o.words ++ addWords l

def AddOpt.Ok : AddOpt → Prop
  | .priority i | .dupeScore i => -2147483648 ≤ i ∧ i ≤ 2147483647
  | _ => True

def AddOpt.effect (c : Cmd) : AddOpt → Cmd
  | .top => { c with top := true }
  | .paused => { c with paused := true }
  | .priority i => { c with priority := i }
  | .category b => { c with category := some b }
  | .name b => { c with nzbName := some b }
  | .dupeKey b => { c with dupeKey := some b }
  | .dupeScore i => { c with dupeScore := i }
  | .dupeMode m => { c with dupeMode := m }

def adding : Cmd → List AddOpt → Cmd
  | c, [] => c
  | c, o :: l => adding (o.effect c) l

/-- The words which -A understands itself. -/
def addKeywords : List String := ["F", "U", "T", "P", "I", "C", "N", "DK", "DS", "DM"]

/-- The commands for pausing, lists and scanning. -/
def control : List (UInt8 × String × Op) :=
  [(80, "D", .downloadPause), (80, "O", .postPause), (80, "S", .scanPause),
   (85, "D", .downloadUnpause), (85, "O", .postUnpause), (85, "S", .scanUnpause),
   (76, "F", .listFiles), (76, "G", .listGroups), (76, "O", .postQueue), (76, "S", .listStatus), (76, "H", .history),
   (76, "HA", .historyAll), (83, "W", .scanSync)]

/-- The same without a word. -/
def controlDefault : List (UInt8 × Op) :=
  [(80, .downloadPause), (85, .downloadUnpause), (76, .listFiles), (83, .scanAsync), (81, .shutdown), (79, .reload),
   (86, .version)]

/-! ### Words -/

theorem isW_of {w : Bytes} {s : String} (h : isW w s = true) (t : String) : isW w t = isW (lit s) t := by
  unfold isW Rpc.eqNoCase at *
  rw [beq_iff_eq.1 h]

theorem switch_plain {w : Bytes} (h : Plain w) (rest : List Bytes) : switch w rest = .operand := by
  unfold switch
  split
  · exact absurd rfl h
  · exact absurd rfl h
  · exact absurd rfl h
  · rfl

theorem loop_plain : ∀ (ops : List Bytes) (fuel : Nat) (c : Cmd) (t : Nat), (∀ w ∈ ops, Plain w) →
    loop fuel c t ops = .ok (c, t)
  | [], fuel, c, t, _ => by cases fuel <;> rfl
  | w :: l, 0, c, t, _ => rfl
  | w :: l, fuel + 1, c, t, h => by
    rw [loop, switch_plain (h w (by simp))]
    exact loop_plain l fuel c t (fun x hx => h x (List.mem_cons_of_mem _ hx))

/-- A short switch without a value. -/
theorem switch_short {b : UInt8} (h : plain.contains b = true) (h2 : withValue.contains b = false) (rest : List Bytes) :
    switch [45, b] rest = .opt b none rest := by
  have h3 : b ≠ 45 := by
    intro q; subst q; exact absurd h (by decide +kernel)
  unfold switch
  split
  · next q => simp at q; exact absurd q h3
  · next q => simp at q; exact absurd q.1 h3
  · next l m _ _ q =>
    simp at q
    obtain ⟨q1, q2⟩ := q
    subst q1; subst q2
    rw [if_neg (by rw [h2]; decide), if_pos h, if_pos rfl]
  · next q => exact absurd rfl (q b [])

theorem switch_value {b : UInt8} (h2 : withValue.contains b = true) (v : Bytes) (rest : List Bytes) :
    switch [45, b] (v :: rest) = .opt b (some v) rest := by
  have h3 : b ≠ 45 := by
    intro q; subst q; exact absurd h2 (by decide +kernel)
  unfold switch
  split
  · next q => simp at q; exact absurd q h3
  · next q => simp at q; exact absurd q.1 h3
  · next l m _ _ q =>
    simp at q
    obtain ⟨q1, q2⟩ := q
    subst q1; subst q2
    rw [if_pos h2, if_pos rfl]
    rfl
  · next q => exact absurd rfl (q b [])

theorem loop_setup : ∀ (l : List Setup) (fuel : Nat) (c : Cmd) (t : Nat) (ws : List Bytes),
    loop ((setupWords l).length + fuel) c t (setupWords l ++ ws) =
      loop (fuel + ((setupWords l).length - l.length)) (settings c l) (t + (setupWords l).length) ws
  | [], fuel, c, t, ws => by simp [setupWords, settings]
  | .config f :: l, fuel, c, t, ws => by
    have h := loop_setup l (fuel + 1) { c with config := some f } (t + 2) ws
    have hl : l.length ≤ (setupWords l).length := by
      clear h
      induction l with
      | nil => simp
      | cons a l ih => cases a <;> simp [setupWords, Setup.words] <;> omega
    show loop (((setupWords l).length + 2) + fuel) c t ([45, 99] :: f :: (setupWords l ++ ws)) = _
    rw [show ((setupWords l).length + 2) + fuel = ((setupWords l).length + (fuel + 1)) + 1 by omega, loop,
      switch_value (by decide +kernel)]
    dsimp only [apply]
    rw [if_pos rfl]
    dsimp only [Option.getD]
    rw [show (([45, 99] :: f :: (setupWords l ++ ws)).length - (setupWords l ++ ws).length) = 2 by simp; omega, h]
    show loop _ (settings _ l) _ ws = loop _ (settings _ l) _ ws
    congr 1
    · simp [setupWords, Setup.words]; omega
    · simp [setupWords, Setup.words]; omega
  | .option f :: l, fuel, c, t, ws => by
    have h := loop_setup l (fuel + 1) { c with options := c.options ++ [f] } (t + 2) ws
    have hl : l.length ≤ (setupWords l).length := by
      clear h
      induction l with
      | nil => simp
      | cons a l ih => cases a <;> simp [setupWords, Setup.words] <;> omega
    show loop (((setupWords l).length + 2) + fuel) c t ([45, 111] :: f :: (setupWords l ++ ws)) = _
    rw [show ((setupWords l).length + 2) + fuel = ((setupWords l).length + (fuel + 1)) + 1 by omega, loop,
      switch_value (by decide +kernel)]
    dsimp only [apply]
    simp only [show ((111 : UInt8) = 99) = False by simp, show ((111 : UInt8) = 110) = False by simp,
      show ((111 : UInt8) = 104) = False by simp, show ((111 : UInt8) = 118) = False by simp,
      show ((111 : UInt8) = 112) = False by simp, if_false, if_true]
    dsimp only [Option.getD]
    rw [show (([45, 111] :: f :: (setupWords l ++ ws)).length - (setupWords l ++ ws).length) = 2 by simp; omega, h]
    show loop _ (settings _ l) _ ws = loop _ (settings _ l) _ ws
    congr 1
    · simp [setupWords, Setup.words]; omega
    · simp [setupWords, Setup.words]; omega
  | .noConfig :: l, fuel, c, t, ws => by
    have h := loop_setup l fuel { c with config := none, noConfig := true } (t + 1) ws
    have hl : l.length ≤ (setupWords l).length := by
      clear h
      induction l with
      | nil => simp
      | cons a l ih => cases a <;> simp [setupWords, Setup.words] <;> omega
    show loop (((setupWords l).length + 1) + fuel) c t ([45, 110] :: (setupWords l ++ ws)) = _
    rw [show ((setupWords l).length + 1) + fuel = ((setupWords l).length + fuel) + 1 by omega, loop,
      switch_short (by decide +kernel) (by decide +kernel)]
    dsimp only [apply]
    simp only [show ((110 : UInt8) = 99) = False by simp, if_false, if_true]
    rw [show (([45, 110] :: (setupWords l ++ ws)).length - (setupWords l ++ ws).length) = 1 by simp, h]
    show loop _ (settings _ l) _ ws = loop _ (settings _ l) _ ws
    congr 1
    · simp [setupWords, Setup.words] <;> omega
    · simp [setupWords, Setup.words] <;> omega

theorem settings_eq (l : List Setup) : ∀ (c : Cmd), ∃ n cf o,
    settings c l = { c with noConfig := n, config := cf, options := o } := by
  induction l with
  | nil => intro c; exact ⟨c.noConfig, c.config, c.options, rfl⟩
  | cons s l ih =>
    intro c
    obtain ⟨n, cf, o, h⟩ := ih (s.effect c)
    refine ⟨n, cf, o, ?_⟩
    rw [settings, h]
    cases s <;> rfl

theorem setup_length (l : List Setup) : l.length ≤ (setupWords l).length := by
  induction l with
  | nil => simp
  | cons a l ih => cases a <;> simp [setupWords, Setup.words] <;> omega

/-- One switch behind the settings, the rest are operands. -/
theorem parse_go {cwd : Bytes} {setup : List Setup} {w : Bytes} {tail : List Bytes} {letter : UInt8} {v : Option Bytes}
    {rest : List Bytes} {c : Cmd} {pre ops : List Bytes} (hs : switch w tail = .opt letter v rest)
    (ha : apply (settings {} setup) letter v rest = .go c ops) (hw : w :: tail = pre ++ ops)
    (hp : ∀ x ∈ ops, Plain x) (ho : c.printOptions = false) :
    parse cwd (setupWords setup ++ w :: tail) = fileArgs cwd (finish c) ops := by
  unfold parse
  rw [if_neg (by simp), List.length_append, loop_setup setup]
  rw [show (w :: tail).length + ((setupWords setup).length - setup.length) =
    (tail.length + ((setupWords setup).length - setup.length)) + 1 by simp only [List.length_cons]; omega, loop, hs]
  dsimp only
  rw [ha]
  dsimp only
  rw [loop_plain ops _ _ _ hp]
  dsimp only
  rw [ho, if_neg (by decide)]
  congr 1
  rw [hw, Nat.zero_add, ← List.append_assoc, List.length_append (as := pre), Nat.add_sub_cancel, ← List.length_append,
    List.drop_left]

theorem parse_fin {cwd : Bytes} {setup : List Setup} {w : Bytes} {tail : List Bytes} {letter : UInt8} {v : Option Bytes}
    {rest : List Bytes} {o : Outcome} (hs : switch w tail = .opt letter v rest)
    (ha : apply (settings {} setup) letter v rest = .fin o) :
    parse cwd (setupWords setup ++ w :: tail) = o := by
  unfold parse
  rw [if_neg (by simp), List.length_append, loop_setup setup]
  rw [show (w :: tail).length + ((setupWords setup).length - setup.length) =
    (tail.length + ((setupWords setup).length - setup.length)) + 1 by simp only [List.length_cons]; omega, loop, hs]
  dsimp only
  rw [ha]

theorem apply_edit (c : Cmd) (v : Bytes) (rest : List Bytes) :
    apply c 69 (some v) rest = Effect.ofOption (edit c v rest) := rfl

theorem apply_append (c : Cmd) (rest : List Bytes) :
    apply c 65 none rest = Effect.ofOption (append { c with op := .download } rest) := rfl

/-- The words behind -E: `k` chooses the target. -/
theorem edit_target {k : Bytes} {s : String} {t : Target} {m : Match} (hk : isW k s = true) (ht : (s, t, m) ∈ targetWords)
    (c : Cmd) (a : Bytes) (rest : List Bytes) :
    edit c k (a :: rest) =
      match t with
      | .files => editQueue false { c with op := .edit, mode := m } a rest
      | .groups => editQueue true { c with op := .edit, mode := m } a rest
      | .postJobs => if isW a "D" then some ({ c with op := .edit, mode := m, action := some .postDelete }, rest) else none
      | .history => editHistory { c with op := .edit, mode := m } a rest := by
  unfold edit
  simp only [isW_of hk]
  simp only [targetWords, List.mem_cons, List.not_mem_nil, or_false, Prod.mk.injEq] at ht
  rcases ht with ⟨rfl, rfl, rfl⟩ | ⟨rfl, rfl, rfl⟩ | ⟨rfl, rfl, rfl⟩ | ⟨rfl, rfl, rfl⟩ | ⟨rfl, rfl, rfl⟩ | ⟨rfl, rfl, rfl⟩ |
    ⟨rfl, rfl, rfl⟩ | ⟨rfl, rfl, rfl⟩ <;> rfl

theorem fileArgs_editing (cwd : Bytes) {c : Cmd} (hc : ∃ n cf o, c = ({ noConfig := n, config := cf, options := o } : Cmd))
    (m : Match) (a : Action) (text : Option Bytes) (offset : Int) (ops : List Bytes) :
    fileArgs cwd (finish { c with op := .edit, mode := m, action := some a, text := text, offset := offset }) ops =
      editing c m a text offset ops := by
  obtain ⟨n, cf, o, rfl⟩ := hc
  unfold fileArgs editing finish
  cases ops with
  | nil => rfl
  | cons f l =>
    simp only [if_true, List.cons_ne_nil, if_false, reduceCtorEq, and_false]
    by_cases h : m = .id
    · rw [if_pos h, if_pos h]
      cases parseIds (f :: l) <;> rfl
    · rw [if_neg h, if_neg h]

/-! ### Editing -/

theorem tail_split (k a : Bytes) (ops : List Bytes) :
    ([45, 69] : Bytes) :: k :: a :: ops = [[45, 69], k, a] ++ ops := rfl

/-- The actions of the manual without a text. -/
theorem edit_manual {k a : Bytes} {s u : String} {t : Target} {m : Match} {act : Action} (hk : isW k s = true)
    (ht : (s, t, m) ∈ targetWords) (ha : isW a u = true) (hm : (t, u, act) ∈ manual) (c : Cmd) (rest : List Bytes) :
    edit c k (a :: rest) = some ({ c with op := .edit, mode := m, action := some act }, rest) := by
  rw [edit_target hk ht]
  simp only [manual, List.mem_cons, List.not_mem_nil, or_false, Prod.mk.injEq] at hm
  rcases hm with ⟨rfl, rfl, rfl⟩ | ⟨rfl, rfl, rfl⟩ | ⟨rfl, rfl, rfl⟩ | ⟨rfl, rfl, rfl⟩ | ⟨rfl, rfl, rfl⟩ | ⟨rfl, rfl, rfl⟩ |
    ⟨rfl, rfl, rfl⟩ | ⟨rfl, rfl, rfl⟩ | ⟨rfl, rfl, rfl⟩ | ⟨rfl, rfl, rfl⟩ | ⟨rfl, rfl, rfl⟩ | ⟨rfl, rfl, rfl⟩ | ⟨rfl, rfl, rfl⟩ |
    ⟨rfl, rfl, rfl⟩ | ⟨rfl, rfl, rfl⟩ | ⟨rfl, rfl, rfl⟩ | ⟨rfl, rfl, rfl⟩ | ⟨rfl, rfl, rfl⟩ | ⟨rfl, rfl, rfl⟩ | ⟨rfl, rfl, rfl⟩ |
    ⟨rfl, rfl, rfl⟩ | ⟨rfl, rfl, rfl⟩ | ⟨rfl, rfl, rfl⟩ | ⟨rfl, rfl, rfl⟩ <;>
    (dsimp only; simp only [editQueue, editHistory, isW_of ha]; rfl)

/-- **The commands of the manual are understood**: the action of the manual is sent for the ids or names behind
it, upper and lower case alike. -/
theorem edit_commands (cwd : Bytes) (setup : List Setup) {k a : Bytes} {s u : String} {t : Target} {m : Match} {act : Action}
    (hk : isW k s = true) (ht : (s, t, m) ∈ targetWords) (ha : isW a u = true) (hm : (t, u, act) ∈ manual)
    {ops : List Bytes} (ho : ∀ x ∈ ops, Plain x) :
    parse cwd (setupWords setup ++ lit "-E" :: k :: a :: ops) = editing (settings {} setup) m act none 0 ops := by
  obtain ⟨n, cf, o, hs⟩ := settings_eq setup {}
  rw [show lit "-E" = [45, 69] from by decide +kernel]
  rw [parse_go (switch_value (by decide +kernel) k (a :: ops))
    (by rw [apply_edit, edit_manual hk ht ha hm]; rfl) (tail_split k a ops) ho (by rw [hs])]
  rw [← fileArgs_editing cwd ⟨n, cf, o, hs⟩ m act none 0 ops]
  rw [hs]

example : parse (lit "/home") [lit "-c", lit "/etc/n.conf", lit "-E", lit "g", lit "d", lit "1-3,7"] =
    editing { config := some (lit "/etc/n.conf") } .id .groupDelete none 0 [lit "1-3,7"] :=
  edit_commands (lit "/home") [.config (lit "/etc/n.conf")] (s := "G") (u := "D") (t := .groups) (by decide +kernel) (by decide) (by decide +kernel)
    (by decide) (by decide +kernel)

/-- The same with a text. -/
theorem edit_texts (cwd : Bytes) (setup : List Setup) {k a v : Bytes} {s u : String} {t : Target} {m : Match} {act : Action}
    {ok : Bytes → Bool} (hk : isW k s = true) (ht : (s, t, m) ∈ targetWords) (ha : isW a u = true)
    (hm : (t, u, act, ok) ∈ manualText) {ops : List Bytes} (ho : ∀ x ∈ ops, Plain x) :
    parse cwd (setupWords setup ++ lit "-E" :: k :: a :: v :: ops) =
      if ok v then editing (settings {} setup) m act (some v) 0 ops else .error := by
  obtain ⟨n, cf, o, hs⟩ := settings_eq setup {}
  have key : ∀ c : Cmd, edit c k (a :: v :: ops) =
      if ok v then some ({ c with op := .edit, mode := m, action := some act, text := some v }, ops) else none := by
    intro c
    rw [edit_target hk ht]
    simp only [manualText, List.mem_cons, List.not_mem_nil, or_false, Prod.mk.injEq] at hm
    rcases hm with ⟨rfl, rfl, rfl, rfl⟩ | ⟨rfl, rfl, rfl, rfl⟩ | ⟨rfl, rfl, rfl, rfl⟩ | ⟨rfl, rfl, rfl, rfl⟩ |
      ⟨rfl, rfl, rfl, rfl⟩ | ⟨rfl, rfl, rfl, rfl⟩ | ⟨rfl, rfl, rfl, rfl⟩ <;>
      (dsimp only; simp only [editQueue, editHistory, isW_of ha]; rfl)
  rw [show lit "-E" = [45, 69] from by decide +kernel]
  by_cases h : ok v = true
  · rw [if_pos h]
    rw [parse_go (switch_value (by decide +kernel) k (a :: v :: ops)) (by rw [apply_edit, key, if_pos h]; rfl)
      (show _ = [[45, 69], k, a, v] ++ ops from rfl) ho (by rw [hs])]
    rw [← fileArgs_editing cwd ⟨n, cf, o, hs⟩ m act (some v) 0 ops]
    rw [hs]
  · rw [if_neg h]
    exact parse_fin (switch_value (by decide +kernel) k (a :: v :: ops)) (by rw [apply_edit, key, if_neg h]; rfl)

example : parse [] [lit "-E", lit "GN", lit "I", lit "-50", lit "My download"] =
    editing {} .name .groupSetPriority (some (lit "-50")) 0 [lit "My download"] := by
  have h := edit_texts [] [] (k := lit "GN") (a := lit "I") (v := lit "-50") (s := "GN") (u := "I") (t := .groups) (m := .name)
    (act := .groupSetPriority) (ok := fun v => OptStore.intOf v != 0 || v == lit "0") (by decide +kernel) (by decide) (by decide +kernel) (by simp [manualText]) (ops := [lit "My download"]) (by decide +kernel)
  rw [if_pos (by decide +kernel)] at h
  exact h

/-- A word which begins with a digit or a sign is no name of an action. -/
theorem not_word {w : Bytes} {b : UInt8} {l : Bytes} (hw : w = b :: l) (hb : isDigit b = true ∨ b = 43 ∨ b = 45) (s : String)
    (hs : ((lit s).map WildMask.lower).head?.all (fun c => decide (97 ≤ c.toNat)) = true) : isW w s = false := by
  unfold isW Rpc.eqNoCase
  rw [Bool.eq_false_iff]
  intro h
  have h := beq_iff_eq.1 h
  rw [← h, hw] at hs
  have : decide (97 ≤ (WildMask.lower b).toNat) = true := hs
  have h2 := of_decide_eq_true this
  have h3 : 43 ≤ b.toNat ∧ b.toNat ≤ 57 := by
    rcases hb with q | q | q
    · unfold isDigit at q; simp at q; omega
    · subst q; decide
    · subst q; decide
  unfold WildMask.lower at h2
  split at h2
  · next q => omega
  · omega

/-- The number behind -E. -/
def Signed (w : Bytes) (i : Int) : Prop := (∃ n : Nat, w = 43 :: dec n ∧ i = n) ∨ w = decInt i

theorem signed_int {w : Bytes} {i : Int} (h : Signed w i) (h1 : -2147483648 ≤ i) (h2 : i ≤ 2147483647) :
    OptStore.intOf w = i ∧ ∃ b l, w = b :: l ∧ (isDigit b = true ∨ b = 43 ∨ b = 45) := by
  rcases h with ⟨n, rfl, rfl⟩ | rfl
  · refine ⟨?_, 43, dec n, rfl, Or.inr (Or.inl rfl)⟩
    have : atoll (43 :: dec n) = n := by
      unfold atoll
      rw [List.dropWhile_cons, if_neg (by decide)]
      dsimp only
      have hd := digits_dec n [] (by simp)
      rw [List.append_nil] at hd
      rw [if_neg (by decide), if_pos rfl, hd]
      unfold clamp64
      omega
    unfold OptStore.intOf
    rw [this]
    exact Int.bmod_eq_of_le (by omega) (by omega)
  · have h3 := RpcParam.intOf_decInt i h1 h2 [] (by simp)
    rw [List.append_nil] at h3
    refine ⟨h3, ?_⟩
    unfold decInt
    split
    · exact ⟨45, dec i.natAbs, rfl, Or.inr (Or.inr rfl)⟩
    · obtain ⟨d, l, hd, hdig⟩ := decAux_ne_nil (i.natAbs + 1) i.natAbs (by omega)
      exact ⟨d, l, hd, Or.inl hdig⟩

/-- **Moving by an offset** (`-E F -3 7`, `-E G +2 5`). -/
theorem edit_offsets (cwd : Bytes) (setup : List Setup) {k a : Bytes} {s : String} {t : Target} {m : Match} {i : Int}
    (hk : isW k s = true) (ht : (s, t, m) ∈ targetWords) (hg : t = .files ∨ t = .groups) (ha : Signed a i)
    (h1 : -2147483648 ≤ i) (h2 : i ≤ 2147483647) {ops : List Bytes} (ho : ∀ x ∈ ops, Plain x) :
    parse cwd (setupWords setup ++ lit "-E" :: k :: a :: ops) =
      if i = 0 then .error
      else editing (settings {} setup) m (if t = .groups then .groupMoveOffset else .fileMoveOffset) none i ops := by
  obtain ⟨hi, b, l, hw, hb⟩ := signed_int ha h1 h2
  obtain ⟨n, cf, o, hs⟩ := settings_eq setup {}
  have nw : ∀ u : String, ((lit u).map WildMask.lower).head?.all (fun c => decide (97 ≤ c.toNat)) = true → isW a u = false :=
    fun u hu => not_word hw hb u hu
  have key : ∀ (c : Cmd) (g : Bool), editQueue g c a ops =
      if i = 0 then none
      else some ({ c with offset := i, action := some (if g then .groupMoveOffset else .fileMoveOffset) }, ops) := by
    intro c g
    unfold editQueue
    simp only [nw "T" (by decide +kernel), nw "B" (by decide +kernel), nw "P" (by decide +kernel), nw "A" (by decide +kernel),
      nw "R" (by decide +kernel), nw "U" (by decide +kernel), nw "D" (by decide +kernel), nw "DP" (by decide +kernel),
      nw "SF" (by decide +kernel), nw "C" (by decide +kernel), nw "K" (by decide +kernel), nw "CP" (by decide +kernel),
      nw "N" (by decide +kernel), nw "M" (by decide +kernel), nw "S" (by decide +kernel), nw "O" (by decide +kernel),
      nw "I" (by decide +kernel), Bool.false_eq_true, if_false, Bool.or_self, hi]
  have key2 : ∀ c : Cmd, edit c k (a :: ops) =
      if i = 0 then none
      else some ({ c with op := .edit, mode := m, offset := i,
                          action := some (if t = .groups then .groupMoveOffset else .fileMoveOffset) }, ops) := by
    intro c
    rw [edit_target hk ht]
    rcases hg with rfl | rfl
    · exact key _ false
    · exact key _ true
  rw [show lit "-E" = [45, 69] from by decide +kernel]
  by_cases h : i = 0
  · rw [if_pos h]
    exact parse_fin (switch_value (by decide +kernel) k (a :: ops)) (by rw [apply_edit, key2, if_pos h]; rfl)
  · rw [if_neg h]
    rw [parse_go (switch_value (by decide +kernel) k (a :: ops)) (by rw [apply_edit, key2, if_neg h]; rfl)
      (tail_split k a ops) ho (by rw [hs])]
    rw [← fileArgs_editing cwd ⟨n, cf, o, hs⟩ m _ none i ops]
    rw [hs]

example : Signed (lit "-3") (-3) ∧ Signed (lit "+12") 12 :=
  ⟨Or.inr (by decide +kernel), Or.inl ⟨12, by decide +kernel, rfl⟩⟩

/-- **Without F, G, O or H the command is about files.** -/
theorem edit_default (cwd : Bytes) (setup : List Setup) {a : Bytes} {u : String} {act : Action} (ha : isW a u = true)
    (hm : (Target.files, u, act) ∈ manual) {ops : List Bytes} (ho : ∀ x ∈ ops, Plain x) :
    parse cwd (setupWords setup ++ lit "-E" :: a :: ops) = editing (settings {} setup) .id act none 0 ops := by
  obtain ⟨n, cf, o, hs⟩ := settings_eq setup {}
  have key : ∀ c : Cmd, edit c a ops = some ({ c with op := .edit, mode := .id, action := some act }, ops) := by
    intro c
    unfold edit
    simp only [isW_of ha]
    simp only [manual, List.mem_cons, List.not_mem_nil, or_false, Prod.mk.injEq, reduceCtorEq, false_and, true_and] at hm
    rcases hm with ⟨rfl, rfl⟩ | ⟨rfl, rfl⟩ | ⟨rfl, rfl⟩ | ⟨rfl, rfl⟩ | ⟨rfl, rfl⟩ <;>
      (simp only [editQueue, isW_of ha]; rfl)
  rw [show lit "-E" = [45, 69] from by decide +kernel]
  rw [parse_go (switch_value (by decide +kernel) a ops) (by rw [apply_edit, key]; rfl)
    (show _ = [[45, 69], a] ++ ops from rfl) ho (by rw [hs])]
  rw [← fileArgs_editing cwd ⟨n, cf, o, hs⟩ .id act none 0 ops]
  rw [hs]

/-! ### Targets -/

/-- What a reader of words leaves alone. -/
structure Kept (c c' : Cmd) (rest rest' : List Bytes) : Prop where
  words : ∃ pre, rest = pre ++ rest'
  op : c'.op = c.op
  mode : c'.mode = c.mode
  server : c'.server = c.server
  client : c'.client = c.client
  po : c'.printOptions = c.printOptions

/-- The actions which may come out for a target. -/
def Wanted (t : Target) (act : Action) : Prop :=
  act.target = t ∨ (t = .files ∧ (act = .groupParkDelete ∨ act = .groupSortFiles)) ∨ (t = .groups ∧ act = .fileSplit)

theorem withText_some {c c' : Cmd} {a : Action} {ok : Bytes → Bool} {rest rest' : List Bytes}
    (h : withText c a ok rest = some (c', rest')) : Kept c c' rest rest' ∧ c'.action = some a := by
  unfold withText at h
  split at h
  · exact absurd h (by simp)
  · next v r =>
    split at h
    · simp only [Option.some.injEq, Prod.mk.injEq] at h
      obtain ⟨rfl, rfl⟩ := h
      exact ⟨⟨⟨[v], rfl⟩, rfl, rfl, rfl, rfl, rfl⟩, rfl⟩
    · exact absurd h (by simp)

theorem plainAct {c c' : Cmd} {a : Action} {rest rest' : List Bytes}
    (h : some ({ c with action := some a }, rest) = some (c', rest')) : Kept c c' rest rest' ∧ c'.action = some a := by
  simp only [Option.some.injEq, Prod.mk.injEq] at h
  obtain ⟨rfl, rfl⟩ := h
  exact ⟨⟨⟨[], rfl⟩, rfl, rfl, rfl, rfl, rfl⟩, rfl⟩

theorem editHistory_some {c c' : Cmd} {w : Bytes} {rest rest' : List Bytes} (h : editHistory c w rest = some (c', rest')) :
    Kept c c' rest rest' ∧ ∃ act, c'.action = some act ∧ act.target = .history := by
  unfold editHistory at h
  repeat' (split at h)
  all_goals first
    | (simp at h; done)
    | exact ⟨(plainAct h).1, _, (plainAct h).2, rfl⟩
    | exact ⟨(withText_some h).1, _, (withText_some h).2, rfl⟩

theorem editQueue_some {g : Bool} {c c' : Cmd} {w : Bytes} {rest rest' : List Bytes}
    (h : editQueue g c w rest = some (c', rest')) :
    Kept c c' rest rest' ∧ ∃ act, c'.action = some act ∧ Wanted (if g then .groups else .files) act := by
  unfold editQueue at h
  by_cases q : isW w "T" = true
  · rw [if_pos q] at h
    exact ⟨(plainAct h).1, _, (plainAct h).2, by cases g <;> exact Or.inl rfl⟩
  rw [if_neg q] at h
  clear q
  by_cases q : isW w "B" = true
  · rw [if_pos q] at h
    exact ⟨(plainAct h).1, _, (plainAct h).2, by cases g <;> exact Or.inl rfl⟩
  rw [if_neg q] at h
  clear q
  by_cases q : isW w "P" = true
  · rw [if_pos q] at h
    exact ⟨(plainAct h).1, _, (plainAct h).2, by cases g <;> exact Or.inl rfl⟩
  rw [if_neg q] at h
  clear q
  by_cases q : isW w "A" = true
  · rw [if_pos q] at h
    exact ⟨(plainAct h).1, _, (plainAct h).2, by cases g <;> exact Or.inl rfl⟩
  rw [if_neg q] at h
  clear q
  by_cases q : isW w "R" = true
  · rw [if_pos q] at h
    exact ⟨(plainAct h).1, _, (plainAct h).2, by cases g <;> exact Or.inl rfl⟩
  rw [if_neg q] at h
  clear q
  by_cases q : isW w "U" = true
  · rw [if_pos q] at h
    exact ⟨(plainAct h).1, _, (plainAct h).2, by cases g <;> exact Or.inl rfl⟩
  rw [if_neg q] at h
  clear q
  by_cases q : isW w "D" = true
  · rw [if_pos q] at h
    exact ⟨(plainAct h).1, _, (plainAct h).2, by cases g <;> exact Or.inl rfl⟩
  rw [if_neg q] at h
  clear q
  by_cases q : isW w "DP" = true
  · rw [if_pos q] at h
    refine ⟨(plainAct h).1, _, (plainAct h).2, ?_⟩
    cases g
    · exact Or.inr (Or.inl ⟨rfl, Or.inl rfl⟩)
    · exact Or.inl rfl
  rw [if_neg q] at h
  clear q
  by_cases q : isW w "SF" = true
  · rw [if_pos q] at h
    refine ⟨(plainAct h).1, _, (plainAct h).2, ?_⟩
    cases g
    · exact Or.inr (Or.inl ⟨rfl, Or.inr rfl⟩)
    · exact Or.inl rfl
  rw [if_neg q] at h
  clear q
  by_cases q : (isW w "C" || isW w "K" || isW w "CP") = true
  · rw [if_pos q] at h
    cases g
    · exact absurd h (by simp)
    · rw [if_pos rfl] at h
      refine ⟨(withText_some h).1, _, (withText_some h).2, Or.inl ?_⟩
      split <;> rfl
  rw [if_neg q] at h
  clear q
  by_cases q : isW w "N" = true
  · rw [if_pos q] at h
    cases g
    · exact absurd h (by simp)
    · rw [if_pos rfl] at h
      exact ⟨(withText_some h).1, _, (withText_some h).2, Or.inl rfl⟩
  rw [if_neg q] at h
  clear q
  by_cases q : isW w "M" = true
  · rw [if_pos q] at h
    cases g
    · exact absurd h (by simp)
    · rw [if_pos rfl] at h
      exact ⟨(plainAct h).1, _, (plainAct h).2, Or.inl rfl⟩
  rw [if_neg q] at h
  clear q
  by_cases q : isW w "S" = true
  · rw [if_pos q] at h
    refine ⟨(withText_some h).1, _, (withText_some h).2, ?_⟩
    cases g
    · exact Or.inl rfl
    · exact Or.inr (Or.inr ⟨rfl, rfl⟩)
  rw [if_neg q] at h
  clear q
  by_cases q : isW w "O" = true
  · rw [if_pos q] at h
    cases g
    · exact absurd h (by simp)
    · rw [if_pos rfl] at h
      exact ⟨(withText_some h).1, _, (withText_some h).2, Or.inl rfl⟩
  rw [if_neg q] at h
  clear q
  by_cases q : isW w "I" = true
  · rw [if_pos q] at h
    cases g
    · exact absurd h (by simp)
    · rw [if_pos rfl] at h
      exact ⟨(withText_some h).1, _, (withText_some h).2, Or.inl rfl⟩
  rw [if_neg q] at h
  clear q
  split at h
  · exact absurd h (by simp)
  · simp only [Option.some.injEq, Prod.mk.injEq] at h
    obtain ⟨rfl, rfl⟩ := h
    exact ⟨⟨⟨[], rfl⟩, rfl, rfl, rfl, rfl, rfl⟩, _, rfl, by cases g <;> exact Or.inl rfl⟩

theorem fileArgs_run {cwd : Bytes} {c c' : Cmd} {ops : List Bytes} (h : fileArgs cwd c ops = .run c') :
    c'.op = c.op ∧ c'.mode = c.mode ∧ c'.action = c.action := by
  unfold fileArgs at h
  repeat' (split at h)
  all_goals first
    | (simp at h; done)
    | (simp only [Outcome.run.injEq] at h; subst h; exact ⟨rfl, rfl, rfl⟩)

/-- **The target which the command names is edited**, with two exceptions: `DP` and `SF` always work on
downloads and `S` always on files. -/
theorem targets_kept {cwd : Bytes} {setup : List Setup} {k a : Bytes} {s : String} {t : Target} {m : Match} {ops : List Bytes}
    {c : Cmd} (hk : isW k s = true) (ht : (s, t, m) ∈ targetWords) (ho : ∀ x ∈ ops, Plain x)
    (h : parse cwd (setupWords setup ++ lit "-E" :: k :: a :: ops) = .run c) :
    c.op = .edit ∧ c.mode = m ∧ ∃ act, c.action = some act ∧ Wanted t act := by
  obtain ⟨n, cf, o, hs⟩ := settings_eq setup {}
  rw [show lit "-E" = [45, 69] from by decide +kernel] at h
  have hsw := switch_value (b := 69) (by decide +kernel) k (a :: ops)
  cases he : edit (settings {} setup) k (a :: ops) with
  | none =>
    rw [parse_fin hsw (show apply (settings {} setup) 69 (some k) (a :: ops) = .fin .error from by rw [apply_edit, he]; rfl)] at h
    exact absurd h (by simp)
  | some r =>
    obtain ⟨c', rest'⟩ := r
    have key : Kept { settings {} setup with op := .edit, mode := m } c' ops rest' ∧ ∃ act, c'.action = some act ∧ Wanted t act := by
      rw [edit_target hk ht] at he
      cases t with
      | files => exact editQueue_some he
      | groups => exact editQueue_some he
      | postJobs =>
        dsimp only at he
        split at he
        · have q := plainAct (c := { settings {} setup with op := .edit, mode := m }) he
          exact ⟨q.1, .postDelete, q.2, Or.inl rfl⟩
        · exact absurd he (by simp)
      | history =>
        obtain ⟨q1, act, q2, q3⟩ := editHistory_some he
        exact ⟨q1, act, q2, Or.inl q3⟩
    obtain ⟨⟨⟨pre, hpre⟩, e1, e2, e3, e4, e5⟩, act, hact, hwant⟩ := key
    rw [parse_go hsw (show apply (settings {} setup) 69 (some k) (a :: ops) = .go c' rest' from by rw [apply_edit, he]; rfl)
      (show _ = ([45, 69] :: k :: a :: pre) ++ rest' from by rw [hpre]; rfl)
      (fun x hx => ho x (by rw [hpre]; exact List.mem_append_right _ hx)) (by rw [e5, hs])] at h
    have hfin : finish c' = c' := by
      unfold finish
      rw [if_neg (by rw [e1]; simp)]
    rw [hfin] at h
    obtain ⟨f1, f2, f3⟩ := fileArgs_run h
    exact ⟨by rw [f1, e1], by rw [f2, e2], act, by rw [f3, hact], hwant⟩

/-- **Files cannot be deleted with `DP`: the DOWNLOADS with these numbers are deleted instead.** -/
theorem files_park_deletes_groups (cwd : Bytes) (setup : List Setup) {k : Bytes} {s : String} {m : Match}
    (hk : isW k s = true) (ht : (s, Target.files, m) ∈ targetWords) {a : Bytes} (ha : isW a "DP" = true) {ops : List Bytes}
    (ho : ∀ x ∈ ops, Plain x) :
    parse cwd (setupWords setup ++ lit "-E" :: k :: a :: ops) = editing (settings {} setup) m .groupParkDelete none 0 ops := by
  obtain ⟨n, cf, o, hs⟩ := settings_eq setup {}
  rw [show lit "-E" = [45, 69] from by decide +kernel]
  rw [parse_go (switch_value (by decide +kernel) k (a :: ops))
    (c := { settings {} setup with op := .edit, mode := m, action := some .groupParkDelete })
    (by rw [apply_edit, edit_target hk ht]; simp only [editQueue, isW_of ha]; rfl) (tail_split k a ops) ho (by rw [hs])]
  rw [← fileArgs_editing cwd ⟨n, cf, o, hs⟩ m .groupParkDelete none 0 ops]
  rw [hs]

/-- **Downloads cannot be split with `S`: the FILES with these numbers are taken instead.** -/
theorem groups_split_takes_files (cwd : Bytes) (setup : List Setup) {k : Bytes} {s : String} {m : Match}
    (hk : isW k s = true) (ht : (s, Target.groups, m) ∈ targetWords) {a : Bytes} (ha : isW a "S" = true) (v : Bytes)
    {ops : List Bytes} (ho : ∀ x ∈ ops, Plain x) :
    parse cwd (setupWords setup ++ lit "-E" :: k :: a :: v :: ops) =
      editing (settings {} setup) m .fileSplit (some v) 0 ops := by
  obtain ⟨n, cf, o, hs⟩ := settings_eq setup {}
  rw [show lit "-E" = [45, 69] from by decide +kernel]
  rw [parse_go (switch_value (by decide +kernel) k (a :: v :: ops))
    (c := { settings {} setup with op := .edit, mode := m, action := some .fileSplit, text := some v })
    (by rw [apply_edit, edit_target hk ht]; simp only [editQueue, isW_of ha]; rfl)
    (show _ = [[45, 69], k, a, v] ++ ops from rfl) ho (by rw [hs])]
  rw [← fileArgs_editing cwd ⟨n, cf, o, hs⟩ m .fileSplit (some v) 0 ops]
  rw [hs]

example : parse [] [lit "-E", lit "F", lit "DP", lit "5"] =
    .run { op := .edit, action := some .groupParkDelete, ids := [5] } := by decide +kernel
example : parse [] [lit "-E", lit "G", lit "S", lit "new", lit "5"] =
    .run { op := .edit, action := some .fileSplit, text := some (lit "new"), ids := [5] } := by decide +kernel

end Verif.CmdArgs
