import Verif.UnpackRunProps

/-
Running of the unpackers: arguments, the file of passwords, cancelling, and what goes wrong (C123).
-/
namespace Verif.UnpackRun
open CStr

/-! ### Arguments -/

/-- The arguments of unrar: the command of the option, then options, then the pattern and the directory with a slash. Besides the options in the
command there is exactly one argument with a password. -/
theorem unrar_args (params : List Bytes) (pw dir : Bytes) (hd : dir.length < 1023) :
    ∃ mid, unrarArgs params pw dir = params ++ mid ++ [lit "*.rar", dir ++ lit "/"] ∧
      (lit "x" ∈ params ++ mid ∨ lit "e" ∈ params ++ mid) ∧ (lit "-o+" ∈ params ++ mid ∨ lit "-o-" ∈ params ++ mid) ∧ lit "-y" ∈ mid ∧
      mid.filter (lit "-p" |>.isPrefixOf ·) = [passwordArg pw] := by
  have hp : (lit "-p").isPrefixOf (passwordArg pw) = true := by
    unfold passwordArg
    split
    · decide +kernel
    · exact List.isPrefixOf_iff_prefix.2 ⟨pw, rfl⟩
  have h1 : (lit "-p").isPrefixOf (lit "x") = false := by decide +kernel
  have h2 : (lit "-p").isPrefixOf (lit "-y") = false := by decide +kernel
  have h3 : (lit "-p").isPrefixOf (lit "-o+") = false := by decide +kernel
  have hdir : (dir ++ lit "/").take 1023 = dir ++ lit "/" := by
    apply List.take_of_length_le
    rw [List.length_append]
    have : (lit "/").length = 1 := by decide +kernel
    omega
  refine ⟨(if lit "x" ∉ params ∧ lit "e" ∉ params then [lit "x"] else []) ++ [lit "-y", passwordArg pw] ++
    (if lit "-o+" ∉ withCommand params ++ [lit "-y", passwordArg pw] ∧ lit "-o-" ∉ withCommand params ++ [lit "-y", passwordArg pw] then [lit "-o+"] else []),
    ?_, ?_, ?_, ?_, ?_⟩
  · unfold unrarArgs
    dsimp only
    rw [hdir]
    unfold withCommand
    split <;> split <;> simp
  · by_cases h : lit "x" ∉ params ∧ lit "e" ∉ params
    · simp [h]
    · have : lit "x" ∈ params ∨ lit "e" ∈ params := by grind
      grind
  · have hw : ∀ a, a ∈ withCommand params → a ∈ params ∨ a ∈ (if lit "x" ∉ params ∧ lit "e" ∉ params then [lit "x"] else []) := by
      intro a ha
      unfold withCommand at ha
      split at ha
      · rename_i q
        rw [if_pos q]
        simpa using ha
      · exact .inl ha
    by_cases h : lit "-o+" ∉ withCommand params ++ [lit "-y", passwordArg pw] ∧ lit "-o-" ∉ withCommand params ++ [lit "-y", passwordArg pw]
    · simp [h]
    · rw [if_neg h]
      have : lit "-o+" ∈ withCommand params ++ [lit "-y", passwordArg pw] ∨ lit "-o-" ∈ withCommand params ++ [lit "-y", passwordArg pw] := by grind
      grind
  · simp
  · rw [List.filter_append, List.filter_append]
    have e1 : (if lit "x" ∉ params ∧ lit "e" ∉ params then [lit "x"] else []).filter (lit "-p" |>.isPrefixOf ·) = [] := by
      split <;> simp [h1]
    have e3 : (if lit "-o+" ∉ withCommand params ++ [lit "-y", passwordArg pw] ∧ lit "-o-" ∉ withCommand params ++ [lit "-y", passwordArg pw] then [lit "-o+"]
        else []).filter (lit "-p" |>.isPrefixOf ·) = [] := by
      split <;> simp [h3]
    rw [e1, e3]
    simp [h2, hp]

/-- The arguments of 7-Zip. -/
theorem sevenZip_args (params : List Bytes) (pw dir : Bytes) (multi : Bool) :
    ∃ mid, sevenZipArgs params pw dir multi = params ++ mid ++ [lit "-o" ++ dir, if multi then lit "*.7z.001" else lit "*.7z"] ∧
      (lit "x" ∈ params ++ mid ∨ lit "e" ∈ params ++ mid) ∧ lit "-y" ∈ mid ∧ mid.filter (lit "-p" |>.isPrefixOf ·) = [passwordArg pw] := by
  have hp : (lit "-p").isPrefixOf (passwordArg pw) = true := by
    unfold passwordArg
    split
    · decide +kernel
    · exact List.isPrefixOf_iff_prefix.2 ⟨pw, rfl⟩
  have h1 : (lit "-p").isPrefixOf (lit "x") = false := by decide +kernel
  have h2 : (lit "-p").isPrefixOf (lit "-y") = false := by decide +kernel
  refine ⟨(if lit "x" ∉ params ∧ lit "e" ∉ params then [lit "x"] else []) ++ [lit "-y", passwordArg pw], ?_, ?_, ?_, ?_⟩
  · unfold sevenZipArgs withCommand
    split <;> simp
  · by_cases h : lit "x" ∉ params ∧ lit "e" ∉ params
    · simp [h]
    · have : lit "x" ∈ params ∨ lit "e" ∈ params := by grind
      grind
  · simp
  · rw [List.filter_append]
    have e1 : (if lit "x" ∉ params ∧ lit "e" ∉ params then [lit "x"] else []).filter (lit "-p" |>.isPrefixOf ·) = [] := by
      split <;> simp [h1]
    rw [e1]
    simp [h2, hp]

example : unrarArgs [lit "unrar"] (lit "secret") (lit "/d/_unpack") =
    [lit "unrar", lit "x", lit "-y", lit "-psecret", lit "-o+", lit "*.rar", lit "/d/_unpack/"] := by decide +kernel

/-- Different passwords are different arguments, except that the password `-` is the same as none. -/
theorem passwordArg_inj (a b : Bytes) (h : passwordArg a = passwordArg b) : a = b ∨ (a = [] ∧ b = lit "-") ∨ (a = lit "-" ∧ b = []) := by
  have e : lit "-p-" = lit "-p" ++ lit "-" := by decide +kernel
  unfold passwordArg at h
  rw [e] at h
  split at h <;> split at h
  · exact .inl (by simp_all)
  · exact .inr (.inl ⟨by assumption, (List.append_cancel_left h).symm⟩)
  · exact .inr (.inr ⟨List.append_cancel_left h, by assumption⟩)
  · exact .inl (List.append_cancel_left h)

theorem dash_is_none : passwordArg (lit "-") = passwordArg [] := by decide +kernel

/-! ### The file of passwords -/

/-- A line of the file: the password, and if the line ends with CR LF. -/
structure PassLine where
  text : Bytes
  cr : Bool
deriving DecidableEq, Repr

def PassLine.bytes (l : PassLine) : Bytes := l.text ++ (if l.cr then [13, 10] else [10])

/-- Lines as they are usual: at most 508 bytes, without ends of line and terminators. -/
def PassLine.Plain (l : PassLine) : Prop := l.text.length ≤ 508 ∧ (0 : UInt8) ∉ l.text ∧ (10 : UInt8) ∉ l.text ∧ (13 : UInt8) ∉ l.text

theorem fgets_app : ∀ (l rest : Bytes) (n : Nat), (10 : UInt8) ∉ l → l.length < n → Text.fgets n (l ++ 10 :: rest) = (l ++ [10], rest)
  | [], rest, n + 1, _, _ => by simp [Text.fgets]
  | c :: l, rest, n + 1, h, hn => by
    have hc : c ≠ 10 := fun q => h (by simp [q])
    have ih := fgets_app l rest n (fun q => h (by simp [q])) (by simpa using hn)
    simp [Text.fgets, hc, ih]
  | [], _, 0, _, hn => by simp at hn
  | _ :: _, _, 0, _, hn => by simp at hn

theorem fgets_last : ∀ (l : Bytes) (n : Nat), (10 : UInt8) ∉ l → l.length ≤ n → Text.fgets n l = (l, [])
  | [], 0, _, _ => by simp [Text.fgets]
  | [], n + 1, _, _ => by simp [Text.fgets]
  | c :: l, n + 1, h, hn => by
    have hc : c ≠ 10 := fun q => h (by simp [q])
    have ih := fgets_last l n (fun q => h (by simp [q])) (by simpa using hn)
    simp [Text.fgets, hc, ih]
  | _ :: _, 0, _, hn => by simp at hn

theorem trim_text (t e : Bytes) (h0 : (0 : UInt8) ∉ t) (h10 : (10 : UInt8) ∉ t) (h13 : (13 : UInt8) ∉ t) (he : ∀ b ∈ e, b = 10 ∨ b = 13) :
    trimLine (t ++ e) = t := by
  unfold trimLine
  have hc : cstr (t ++ e) = t ++ e := by
    apply cstr_of_no_nul
    intro a q r
    subst r
    rcases List.mem_append.1 q with q | q
    · exact h0 q
    · rcases he 0 q with r | r <;> cases r
  rw [hc, List.reverse_append, List.dropWhile_append_of_pos]
  · cases ht : t.reverse with
    | nil => simpa using ht
    | cons a l =>
      have ha : a ∈ t := by
        rw [← List.mem_reverse, ht]; simp
      have : (a == 10 || a == 13) = false := by
        simp only [Bool.or_eq_false_iff, beq_eq_false_iff_ne]
        exact ⟨fun q => h10 (q ▸ ha), fun q => h13 (q ▸ ha)⟩
      rw [List.dropWhile_cons_of_neg (by simp [this]), ← ht, List.reverse_reverse]
  · intro a ha
    rcases he a (List.mem_reverse.1 ha) with q | q <;> simp [q]

theorem fileLines_cons (l : PassLine) (rest : Bytes) (fuel : Nat) (h : l.Plain) :
    fileLines (fuel + 1) (l.bytes ++ rest) = l.bytes :: fileLines fuel rest := by
  obtain ⟨h1, h2, h3, h4⟩ := h
  have e : l.bytes ++ rest = (l.text ++ (if l.cr then [13] else [])) ++ 10 :: rest := by
    unfold PassLine.bytes
    cases l.cr <;> simp
  have e' : l.bytes = (l.text ++ (if l.cr then [13] else [])) ++ [10] := by
    unfold PassLine.bytes
    cases l.cr <;> simp
  have hf := fgets_app (l.text ++ (if l.cr then [13] else [])) rest 510 (by cases l.cr <;> simp [h3]) (by cases l.cr <;> simp <;> omega)
  rw [fileLines, if_neg (by rw [e]; simp), e, hf, ← e']

/-- The passwords which are tried are the lines of the file, in their order, without the empty ones; the last line needs no end. -/
theorem password_lines (ls : List PassLine) (last : Bytes) (h : ∀ l ∈ ls, l.Plain) (hl : (⟨last, false⟩ : PassLine).Plain) :
    passwords (ls.flatMap PassLine.bytes ++ last) = (ls.map (·.text) ++ [last]).filter (· ≠ []) := by
  have key : ∀ (ls : List PassLine) (fuel : Nat), (∀ l ∈ ls, l.Plain) → (ls.flatMap PassLine.bytes ++ last).length < fuel →
      ((fileLines fuel (ls.flatMap PassLine.bytes ++ last)).map trimLine).filter (· ≠ []) = (ls.map (·.text) ++ [last]).filter (· ≠ []) := by
    intro ls
    induction ls with
    | nil =>
      intro fuel _ hf
      cases fuel with
      | zero => omega
      | succ fuel =>
        obtain ⟨k1, k2, k3, k4⟩ := hl
        cases last with
        | nil => simp [fileLines]
        | cons b last =>
          have hg := fgets_last (b :: last) 510 k3 (by simp only at k1; omega)
          have ht := trim_text (b :: last) [] k2 k3 k4 (by simp)
          rw [List.append_nil] at ht
          rw [List.flatMap_nil, List.nil_append, fileLines, if_neg (by simp), hg]
          have : fileLines fuel [] = [] := by cases fuel <;> simp [fileLines]
          simp [this, ht]
    | cons l ls ih =>
      intro fuel hp hf
      cases fuel with
      | zero => omega
      | succ fuel =>
        have hpl := hp l (by simp)
        rw [List.flatMap_cons, List.append_assoc] at hf ⊢
        rw [fileLines_cons l _ fuel hpl]
        have hpos : 0 < l.bytes.length := by unfold PassLine.bytes; cases l.cr <;> simp
        have hi := ih fuel (fun x hx => hp x (by simp [hx])) (by rw [List.length_append] at hf; omega)
        obtain ⟨k1, k2, k3, k4⟩ := hpl
        have ht := trim_text l.text (if l.cr then [13, 10] else [10]) k2 k3 k4 (by cases l.cr <;> simp)
        rw [List.map_cons, show trimLine l.bytes = l.text from ht, List.map_cons, List.cons_append, List.filter_cons, List.filter_cons, hi]
  exact key ls _ h (by omega)

example : passwords (lit "alpha\r\n\n  two words \nlast") = [lit "alpha", lit "  two words ", lit "last"] := by decide +kernel

theorem fgets_full : ∀ (l rest : Bytes) (n : Nat), (10 : UInt8) ∉ l → l.length = n → Text.fgets n (l ++ rest) = (l, rest)
  | [], rest, 0, _, _ => by simp [Text.fgets]
  | c :: l, rest, n + 1, h, hn => by
    have hc : c ≠ 10 := fun q => h (by simp [q])
    have ih := fgets_full l rest n (fun q => h (by simp [q])) (by simpa using hn)
    simp [Text.fgets, hc, ih]
  | [], _, n + 1, _, hn => by simp at hn
  | _ :: _, _, 0, _, hn => by simp at hn

/-- A line of more than 510 bytes is not tried: its first 510 bytes are one password and its rest is the next. -/
theorem long_line_split (a b : Bytes) (ha : a.length = 510) (hb : b.length ≤ 510) (hb0 : b ≠ []) (h : ∀ c ∈ a ++ b, c ≠ 0 ∧ c ≠ 10 ∧ c ≠ 13) :
    passwords (a ++ b) = [a, b] := by
  have na : (0 : UInt8) ∉ a ∧ (10 : UInt8) ∉ a ∧ (13 : UInt8) ∉ a :=
    ⟨fun q => (h 0 (by simp [q])).1 rfl, fun q => (h 10 (by simp [q])).2.1 rfl, fun q => (h 13 (by simp [q])).2.2 rfl⟩
  have nb : (0 : UInt8) ∉ b ∧ (10 : UInt8) ∉ b ∧ (13 : UInt8) ∉ b :=
    ⟨fun q => (h 0 (by simp [q])).1 rfl, fun q => (h 10 (by simp [q])).2.1 rfl, fun q => (h 13 (by simp [q])).2.2 rfl⟩
  have ha0 : a ≠ [] := fun q => by rw [q] at ha; cases ha
  have ta := trim_text a [] na.1 na.2.1 na.2.2 (by simp)
  have tb := trim_text b [] nb.1 nb.2.1 nb.2.2 (by simp)
  rw [List.append_nil] at ta tb
  have hlen : (a ++ b).length = b.length + 508 + 1 + 1 := by rw [List.length_append]; omega
  unfold passwords
  rw [hlen, fileLines, if_neg (by simp [ha0]), fgets_full a b 510 na.2.1 ha, fileLines, if_neg hb0, fgets_last b 510 nb.2.1 hb]
  have : fileLines (b.length + 508 + 1) [] = [] := by simp [fileLines]
  rw [this]
  simp [ta, tb, ha0, hb0]

/-! ### Cancelling -/

/-- The job was stopped by the user and not automatically. -/
def Halted (u : U) : Prop := u.stopped = true ∧ u.terminated = true ∧ u.autoTerm = false

theorem stop_halts (u : U) (h : u.autoTerm = false) : Halted (userStop u) := ⟨rfl, rfl, h⟩

theorem halted_message {u : U} (t : Bytes) (h : Halted u) : Halted (addMessage t u) := by
  have g := addMessage_stops t u
  unfold Halted at *
  grind

theorem halted_attempt (c : Cfg) (rs : Nat → Run) (p : Unpacker) (multi : Bool) (pw : Bytes) (u : U) (h : Halted u) :
    Halted (executeUnpack c rs p multi pw u) ∧ (executeUnpack c rs p multi pw u).runs = u.runs ∧ (executeUnpack c rs p multi pw u).ok = false := by
  have hexec : ∀ (p : Unpacker) (args : List Bytes) (pw : Bytes) (r : Run) (u : U), Halted u →
      Halted (execute p args pw r u).1 ∧ (execute p args pw r u).1.runs = u.runs ∧ (execute p args pw r u).2 = 0 := by
    intro p args pw r u h
    obtain ⟨h1, h2, h3⟩ := h
    unfold execute
    dsimp only
    have : (userStopIf r.early { u with next := u.next + 1 }).terminated = true := by
      unfold userStopIf userStop stop
      split <;> simp [h2]
    rw [if_pos this]
    refine ⟨?_, ?_, rfl⟩
    · unfold userStopIf userStop stop Halted
      split <;> simp [h1, h2, h3]
    · unfold userStopIf userStop stop
      split <;> simp
  have hno : ∀ (a b : Bytes), Halted (noCommand a b u) ∧ (noCommand a b u).runs = u.runs ∧ (noCommand a b u).ok = false := by
    intro a b
    unfold noCommand say
    exact ⟨halted_message _ h, (addMessage_eq _ _).2.2.2.2.2.2.2.2.1, rfl⟩
  cases p
  · dsimp only [executeUnpack]
    unfold executeUnrar
    cases cmdParams c.unrarFile c.unrarCmd with
    | none => exact hno _ _
    | some a =>
      dsimp only
      obtain ⟨e1, e2, e3⟩ := hexec .unrar (unrarArgs a pw c.unpackDir) pw (rs u.next) { u with allOk := false, cur := .unrar } h
      generalize execute .unrar _ pw _ _ = e at *
      rw [e3, sayCode_zero]
      exact ⟨e1, e2, by simp [unrarResult, e1.2.1]⟩
  · dsimp only [executeUnpack]
    unfold executeSevenZip
    cases cmdParams c.sevenZipFile c.sevenZipCmd with
    | none => exact hno _ _
    | some a =>
      dsimp only
      have hs : Halted (say (lit "Executing 7-Zip") { u with allOk := false, cur := .sevenZip }) := halted_message _ h
      obtain ⟨e1, e2, e3⟩ := hexec .sevenZip (sevenZipArgs a pw c.unpackDir multi) pw (rs u.next) _ hs
      generalize execute .sevenZip _ pw _ _ = e at *
      rw [e3, sayCode_zero]
      refine ⟨e1, ?_, by simp [sevenZipResult, e1.2.1]⟩
      have := (addMessage_eq ((lit "Executing 7-Zip").take 1023) { u with allOk := false, cur := .sevenZip }).2.2.2.2.2.2.2.2.1
      rw [show (sevenZipResult e).runs = e.1.runs from rfl, e2]
      exact this

theorem halted_list (c : Cfg) (rs : Nat → Run) (p : Unpacker) (multi : Bool) : ∀ (ls : List Bytes) (u : U), Halted u → u.ok = false →
    Halted (tryList c rs p multi ls u) ∧ (tryList c rs p multi ls u).runs = u.runs ∧ (tryList c rs p multi ls u).ok = false
  | [], u, h, ho => ⟨h, rfl, ho⟩
  | l :: ls, u, h, ho => by
    unfold tryList
    split
    · split
      · exact halted_list c rs p multi ls u h ho
      · have hr : Halted (resume (rs u.next).torn u) ∧ (resume (rs u.next).torn u).runs = u.runs := by
          refine ⟨?_, (resume_eq _ _).1⟩
          obtain ⟨h1, h2, h3⟩ := h
          simp [resume, Halted, h1, h2, h3]
        have hm : Halted (say (lit "Trying password " ++ trimLine l ++ lit " for " ++ c.name) (resume (rs u.next).torn u)) := halted_message _ hr.1
        obtain ⟨a1, a2, a3⟩ := halted_attempt c rs p multi (trimLine l) _ hm
        obtain ⟨b1, b2, b3⟩ := halted_list c rs p multi ls _ a1 a3
        refine ⟨b1, ?_, b3⟩
        unfold tryOne
        dsimp only
        rw [b2, a2, say, (addMessage_eq _ _).2.2.2.2.2.2.2.2.1]
        exact hr.2
    · exact ⟨h, rfl, ho⟩

/-- After the user has stopped the job no other process is started and success is not reported, if unpacking was not being stopped automatically
at that time. -/
theorem cancel_stays (c : Cfg) (rs : Nat → Run) (p : Unpacker) (multi : Bool) (u : U) (h : Halted u) :
    Halted (unpackArchives c rs p multi u) ∧ (unpackArchives c rs p multi u).runs = u.runs ∧ (unpackArchives c rs p multi u).ok = false := by
  have hpl : ∀ v : U, Halted v → v.ok = false → Halted (passwordList c rs p multi v) ∧ (passwordList c rs p multi v).runs = v.runs ∧
      (passwordList c rs p multi v).ok = false := by
    intro v hv ho
    unfold passwordList
    split
    · split
      · exact ⟨halted_message _ hv, (addMessage_eq _ _).2.2.2.2.2.2.2.2.1, by rw [say, (addMessage_eq _ _).2.1]; exact ho⟩
      · exact halted_list c rs p multi _ v hv ho
    · exact ⟨hv, rfl, ho⟩
  unfold unpackArchives
  split
  · obtain ⟨a1, a2, a3⟩ := halted_attempt c rs p multi c.password u h
    dsimp only
    split
    · exact ⟨a1, a2, a3⟩
    · obtain ⟨b1, b2, b3⟩ := hpl _ a1 a3
      exact ⟨b1, b2.trans a2, b3⟩
  · exact hpl _ h rfl

/-- If unpacking was stopped automatically, because of a wrong password for example, then a stop by the user is forgotten before the next
password: the state is the same as without it. -/
theorem cancel_forgotten (u : U) (h1 : u.stopped = true) (h2 : u.autoTerm = true) :
    resume false (userStop u) = { resume false u with asked := true, staleKill := u.staleKill || (u.pid && !u.alive) } := by
  simp [resume, userStop, stop, userStopIf, h1, h2]

def demo : Cfg :=
  { name := lit "job", unrarCmd := lit "unrar", unrarFile := false, sevenZipCmd := lit "7z", sevenZipFile := false, unpackDir := lit "/d/_unpack"
    password := [], passOpt := lit "/p", passFile := some (lit "one\ntwo\n"), tried := false, lastPassword := false, hasPars := false, unchecked := true }

def rarOnly : Has := ⟨true, false, false, false, false⟩

/-- The archive needs the password `two`; the user stops the job while the first password is rejected. -/
def lostRuns : Nat → Run
  | 0 => ⟨false, false, [⟨false, lit "Incorrect password for a.rar\n", false⟩], false, 0⟩
  | 1 => ⟨false, false, [⟨false, lit "Incorrect password for a.rar\n", true⟩], false, 0⟩
  | _ => ⟨false, false, [⟨false, lit "All OK\n", false⟩], false, 0⟩

/-- The job goes on with the next password and ends with success, although the user has stopped it. -/
theorem cancel_lost : (runAll demo rarOnly lostRuns true).asked = true ∧ (runAll demo rarOnly lostRuns true).ok = true ∧
    (runAll demo rarOnly lostRuns true).runs.map (·.password) = [[], lit "one", lit "two"] := by decide +kernel

/-- Stopped a moment before, the job ends. -/
example : (runAll demo rarOnly (fun n => if n = 1 then ⟨false, false, [⟨true, lit "Incorrect password for a.rar\n", false⟩], false, 0⟩ else lostRuns n) true).ok =
    false := by decide +kernel

/-! ### Texts which are taken for messages of the unpacker -/

theorem skipped_attempt (c : Cfg) (rs : Nat → Run) (p : Unpacker) (multi : Bool) (pw : Bytes) (u : U) (h : u.terminated = true) :
    (executeUnpack c rs p multi pw u).runs = u.runs ∧ (executeUnpack c rs p multi pw u).ok = false := by
  have hexec : ∀ (p : Unpacker) (args : List Bytes) (pw : Bytes) (r : Run) (u : U), u.terminated = true →
      (execute p args pw r u).1.terminated = true ∧ (execute p args pw r u).1.runs = u.runs := by
    intro p args pw r u h
    unfold execute
    dsimp only
    have : (userStopIf r.early { u with next := u.next + 1 }).terminated = true := by
      unfold userStopIf userStop stop
      split <;> simp [h]
    rw [if_pos this]
    refine ⟨this, ?_⟩
    unfold userStopIf userStop stop
    split <;> simp
  have hno : ∀ (a b : Bytes), (noCommand a b u).runs = u.runs ∧ (noCommand a b u).ok = false := by
    intro a b
    unfold noCommand say
    exact ⟨(addMessage_eq _ _).2.2.2.2.2.2.2.2.1, rfl⟩
  cases p
  · dsimp only [executeUnpack]
    unfold executeUnrar
    cases cmdParams c.unrarFile c.unrarCmd with
    | none => exact hno _ _
    | some a =>
      dsimp only
      obtain ⟨e1, e2⟩ := hexec .unrar (unrarArgs a pw c.unpackDir) pw (rs u.next) { u with allOk := false, cur := .unrar } h
      rw [(sayCode_eq _ _ _).2.2.2.1, (sayCode_eq _ _ _).1]
      exact ⟨e2, by simp [unrarResult, e1]⟩
  · dsimp only [executeUnpack]
    unfold executeSevenZip
    cases cmdParams c.sevenZipFile c.sevenZipCmd with
    | none => exact hno _ _
    | some a =>
      dsimp only
      have hs : (say (lit "Executing 7-Zip") { u with allOk := false, cur := .sevenZip }).terminated = true := by
        rw [say, (addMessage_stops _ _).2.1]
        simp [h]
      obtain ⟨e1, e2⟩ := hexec .sevenZip (sevenZipArgs a pw c.unpackDir multi) pw (rs u.next) _ hs
      rw [(sayCode_eq _ _ _).2.2.2.1, (sayCode_eq _ _ _).1]
      refine ⟨?_, by simp [sevenZipResult, e1]⟩
      have := (addMessage_eq ((lit "Executing 7-Zip").take 1023) { u with allOk := false, cur := .sevenZip }).2.2.2.2.2.2.2.2.1
      rw [show ∀ e : U × Int, (sevenZipResult e).runs = e.1.runs from fun _ => rfl, e2]
      exact this

/-- The name of the job is part of messages which are searched for errors: a job whose name looks like an error is never unpacked. -/
theorem name_stops (c : Cfg) (h : Has) (rs : Nat → Run) (joinOk : Bool) (hn : SaysDamage ((lit "Unpacking " ++ c.name).take 1023)) (ht : c.tried = false) :
    (runAll c h rs joinOk).runs = [] ∧ ((h.rar = true ∧ h.direct = false) ∨ h.sevenZip = true ∨ h.sevenZipMulti = true → (runAll c h rs joinOk).ok = false) := by
  obtain ⟨w0, c0, o0, n0, -⟩ := unpacking_calm c.name
  have t0 : (say (lit "Unpacking " ++ c.name) init).terminated = true := by
    rw [say, (addMessage_stops _ _).2.1, (saysDamage_iff _).2 hn]
    rfl
  have hstep : ∀ (p : Unpacker) (multi b : Bool) (u : U), (u.ok = true → u.terminated = true ∧ Calm u ∧ Whole u) →
      (stage b (unpackArchives c rs p multi) u).runs = u.runs ∧ ((stage b (unpackArchives c rs p multi) u).ok = true → u.ok = true ∧ b = false ∧
        (stage b (unpackArchives c rs p multi) u) = u) := by
    intro p multi b u hu
    unfold stage
    split
    · rename_i hb
      rw [Bool.and_eq_true] at hb
      obtain ⟨u1, u2, u3⟩ := hu hb.2
      have hsk := skipped_attempt c rs p multi c.password u u1
      unfold unpackArchives
      simp only [ht, Bool.not_false, if_true]
      split
      · exact ⟨hsk.1, fun q => by rw [hsk.2] at q; cases q⟩
      · have hpl : passwordList c rs p multi (executeUnpack c rs p multi c.password u) = executeUnpack c rs p multi c.password u := by
          have hw : wantsList c (executeUnpack c rs p multi c.password u) = false := by
            rcases (attempt c rs p multi c.password u u3).2 with ⟨-, -, -, e⟩ | ⟨-, -, -, e⟩ | ⟨x, -, -, -, e, -, -⟩
            · simp [wantsList, goesOn, e]
            · have := e u2
              simp [wantsList, goesOn, this.1, this.2]
            · rw [hsk.1] at e
              simp at e
          simp [passwordList, hw]
        rw [hpl]
        exact ⟨hsk.1, fun q => by rw [hsk.2] at q; cases q⟩
    · rename_i hb
      refine ⟨rfl, fun q => ⟨q, ?_, rfl⟩⟩
      cases b
      · rfl
      · exact absurd (by rw [q]; rfl) hb
  unfold runAll
  dsimp only
  generalize say (lit "Unpacking " ++ c.name) init = u0 at *
  have s1 := hstep .unrar false (h.rar && !h.direct) u0 (fun _ => ⟨t0, c0, w0⟩)
  generalize stage (h.rar && !h.direct) _ u0 = u1 at *
  have s2 := hstep .sevenZip false h.sevenZip u1 (fun q => by rw [(s1.2 q).2.2]; exact ⟨t0, c0, w0⟩)
  generalize stage h.sevenZip _ u1 = u2 at *
  have s3 := hstep .sevenZip true h.sevenZipMulti u2 (fun q => by rw [(s2.2 q).2.2, (s1.2 (s2.2 q).1).2.2]; exact ⟨t0, c0, w0⟩)
  generalize stage h.sevenZipMulti _ u2 = u3 at *
  have e1 : (stage h.splitted (fun u => { u with ok := joinOk }) u3).runs = u3.runs := by unfold stage; split <;> rfl
  have e2 : (stage h.splitted (fun u => { u with ok := joinOk }) u3).ok = true → u3.ok = true := by
    unfold stage
    cases h.splitted <;> cases hu : u3.ok <;> simp [hu]
  refine ⟨by rw [e1, s3.1, s2.1, s1.1, n0], fun hh => ?_⟩
  cases q : (stage h.splitted (fun u => { u with ok := joinOk }) u3).ok with
  | false => rfl
  | true =>
    have q3 := s3.2 (e2 q)
    have q2 := s2.2 q3.1
    have q1 := s1.2 q2.1
    rcases hh with ⟨a, b⟩ | a | a
    · simp [a, b] at q1
    · rw [a] at q2; cases q2.2.1
    · rw [a] at q3; cases q3.2.1

/-- For example every name with ` - CRC failed` at its end. -/
theorem crc_failed_name (n : Bytes) (h : n.length ≤ 1000) : SaysDamage ((lit "Unpacking " ++ (n ++ lit " - CRC failed")).take 1023) := by
  have e : (lit "Unpacking " ++ (n ++ lit " - CRC failed")).take 1023 = lit "Unpacking " ++ (n ++ lit " - CRC failed") := by
    apply List.take_of_length_le
    simp only [List.length_append]
    have e1 : (lit "Unpacking ").length = 10 := by decide +kernel
    have e2 : (lit " - CRC failed").length = 13 := by decide +kernel
    omega
  rw [e]
  refine .inr (.inr (.inl ⟨⟨lit "Unpacking " ++ n, by simp⟩, fun q => ?_⟩))
  have := congrArg List.length q
  simp only [List.length_append] at this
  have e1 : (lit "Unpacking ").length = 10 := by decide +kernel
  omega

/-- The rest of a line after the first backspace is not looked at. -/
theorem after_backspace (p : Unpacker) (a b : Bytes) (h0 : (0 : UInt8) ∉ a) (h8 : (8 : UInt8) ∉ a) : message p (a ++ 8 :: b) = message p (a ++ [8]) := by
  have hc : ∀ r : Bytes, cstr (a ++ 8 :: r) = a ++ 8 :: cstr r := by
    intro r
    clear h8
    induction a with
    | nil => simp [cstr]
    | cons x a ih =>
      have hx : x ≠ 0 := fun q => h0 (by simp [q])
      simp only [List.cons_append, cstr, if_neg hx]
      rw [ih (fun q => h0 (by simp [q]))]
  have ht : ∀ r : Bytes, lineText (a ++ 8 :: r) = if startsWith (lit "...") (a ++ [8]) then [] else a.take 1023 := by
    intro r
    unfold lineText
    dsimp only
    rw [hc]
    have h1 : (a ++ 8 :: cstr r).contains 8 = true := by simp
    rw [if_pos h1]
    have h2 : (a ++ 8 :: cstr r).takeWhile (· ≠ 8) = a := by
      rw [List.takeWhile_append_of_pos]
      · simp
      · intro x hx
        have : x ≠ 8 := fun q => h8 (q ▸ hx)
        simp [this]
    rw [h2]
    have h3 : startsWith (lit "...") (a ++ 8 :: cstr r) = startsWith (lit "...") (a ++ [8]) := by
      have e : lit "..." = [46, 46, 46] := by decide +kernel
      rw [e]
      rcases a with _ | ⟨x, _ | ⟨y, _ | ⟨z, a⟩⟩⟩ <;> simp [startsWith, List.isPrefixOf]
    rw [h3]
  unfold message
  rw [ht b, ht []]

/-- The message of success is not noticed in such a line. -/
example : message .unrar (lit "  1%\x08\x08\x08\x08All OK\n") = message .unrar (lit "  1%\x08") := by decide +kernel

/-! ### Undefined behaviour -/

/-- A message of 7-Zip of 19 to 44 bytes is compared with bytes before its first one. -/
theorem outside_iff (t : Bytes) (u : U) : (addMessage t u).outside = true ↔ u.outside = true ∨ (u.cur = .sevenZip ∧ 18 < t.length ∧ t.length < 45) := by
  unfold addMessage noteOk checkDamage noteErrors stop
  cases hc : u.cur <;> dsimp only <;> split <;> simp_all

/-- The message of success of 7-Zip is one of them. -/
theorem success_outside (u : U) (h : u.cur = .sevenZip) : (addMessage (lit "7-Zip: Everything is Ok") u).outside = true :=
  (outside_iff _ u).2 (.inr ⟨h, by decide +kernel, by decide +kernel⟩)

/-- In a flat memory the comparison has the right result, whatever is before the text: a text which has the character `7`, as every message with
the prefix `7-Zip`, is not the end of the text compared with. -/
theorem outside_harmless (mem t : Bytes) (hm : mem.length = 45) (h7 : (55 : UInt8) ∈ t) (ht : t.length < 45) :
    ((mem ++ t).drop t.length).take 45 ≠ dataError := by
  intro q
  have hd : (55 : UInt8) ∉ dataError := by decide +kernel
  apply hd
  rw [← q, List.take_of_length_le (by simp; omega)]
  rw [List.drop_append_of_le_length (by omega)]
  simp [h7]

theorem pid_line (p : Unpacker) (u : U) (l : Line) (h : u.pid = true) : (onLine p u l).pid = true := by
  have hs : ∀ (b : Bool) (v : U), (userStopIf b v).pid = v.pid := by
    intro b v
    unfold userStopIf userStop stop
    split <;> rfl
  unfold onLine
  split
  · exact h
  · dsimp only
    rw [hs]
    split
    · rw [hs, h]
    · rw [(addMessage_eq _ _).2.2.2.2.2.1]
      dsimp only
      rw [hs, h]

theorem pid_lines (p : Unpacker) : ∀ (ls : List Line) (u : U), u.pid = true → (ls.foldl (onLine p) u).pid = true
  | [], _, h => h
  | l :: ls, u, h => pid_lines p ls (onLine p u l) (pid_line p u l h)

/-- A process which was not stopped has ended and its number is kept. -/
theorem execute_pid (p : Unpacker) (args : List Bytes) (pw : Bytes) (r : Run) (u : U) (h : (execute p args pw r u).1.terminated = false) :
    (execute p args pw r u).1.pid = true ∧ (execute p args pw r u).1.alive = false := by
  unfold execute at *
  dsimp only at *
  split at h
  · rename_i q
    rw [q] at h; cases h
  · rename_i q
    rw [if_neg q]
    dsimp only at *
    have hl : r.late = false := by
      cases g : r.late
      · rfl
      · simp [g, userStopIf, userStop, stop] at h
    rw [hl]
    simp only [userStopIf, Bool.false_eq_true, if_false, and_true]
    exact pid_lines _ _ _ rfl

/-- If unrar returns 11, as it does for a wrong password of a new archive, then a signal is sent to the number of the process, which has ended
and was waited for. -/
theorem exit11_kills (c : Cfg) (pw : Bytes) (r : Run) (u : U) (x : Ran) (hw : Whole u) (hx : (executeUnrar c pw r u).runs = u.runs ++ [x])
    (hc : x.code = 11) (hcut : x.cut = false) : (executeUnrar c pw r u).staleKill = true ∧ (executeUnrar c pw r u).autoTerm = true := by
  unfold executeUnrar at *
  cases ha : cmdParams c.unrarFile c.unrarCmd with
  | none =>
    rw [ha] at hx
    dsimp only at hx
    unfold noCommand say at hx
    rw [(addMessage_eq _ _).2.2.2.2.2.2.2.2.1] at hx
    simp at hx
  | some a =>
    rw [ha] at hx
    dsimp only at hx ⊢
    have hw' : Whole { u with allOk := false, cur := .unrar } := hw
    have hp := execute_pid .unrar (unrarArgs a pw c.unpackDir) pw r { u with allOk := false, cur := .unrar }
    rw [(sayCode_eq _ _ _).2.2.2.1] at hx
    rcases execute_cases .unrar (unrarArgs a pw c.unpackDir) pw r { u with allOk := false, cur := .unrar } rfl hw' with
      ⟨e1, e2, e3, e4, e5, e6, e7⟩ | ⟨ht, y, x1, x2, x3, x4, x5, x6, x7, x8⟩
    · rw [show ∀ e : U × Int, (unrarResult e).runs = e.1.runs from fun _ => rfl, e2] at hx
      simp at hx
    · generalize execute .unrar _ pw r _ = e at *
      have hxy : y = x := by
        have : (unrarResult e).runs = u.runs ++ [y] := x6.runs
        rw [this] at hx
        simpa using hx
      subst hxy
      have t : e.1.terminated = false := x8 ▸ hcut
      obtain ⟨p1, p2⟩ := hp t
      have s : e.1.stopped = false := x6.halt.trans t
      have e11 : e.2 = 11 := by rw [x5, ← x4, hc]
      rw [e11]
      unfold sayCode
      have ho : (unrarResult e).ok = false := by simp [unrarResult, e11]
      rw [if_pos (by simp [ho])]
      have hcur : e.1.cur = .unrar := x6.cur
      unfold say addMessage noteOk checkDamage noteErrors unrarResult stop
      simp [hcur, e11, s, p1, p2]

/-- The same for 7-Zip is not possible: its exit code is not looked at for passwords. -/
example : (runAll demo rarOnly (fun _ => ⟨false, false, [], false, 11⟩) true).staleKill = true := by decide +kernel

/-! ### The reported errors -/

theorem space_stop (b : Bool) (u : U) : (userStopIf b u).spaceErr = u.spaceErr := by
  unfold userStopIf userStop stop
  split <;> rfl

theorem space_lines (p : Unpacker) : ∀ (ls : List Line) (u : U), (ls.foldl (onLine p) u).spaceErr = u.spaceErr
  | [], _ => rfl
  | l :: ls, u => by
    rw [List.foldl_cons, space_lines p ls]
    unfold onLine
    split
    · rfl
    · dsimp only
      rw [space_stop]
      split
      · rw [space_stop]
      · rw [(addMessage_eq _ _).2.2.2.1]
        exact space_stop _ _

theorem space_execute (p : Unpacker) (args : List Bytes) (pw : Bytes) (r : Run) (u : U) : (execute p args pw r u).1.spaceErr = u.spaceErr := by
  unfold execute
  dsimp only
  split
  · exact space_stop _ _
  · dsimp only
    rw [space_stop]
    dsimp only
    rw [space_lines]
    exact space_stop _ _

/-- "No space" is reported only if a process of unrar has returned 5. -/
def SpaceTrue (u : U) : Prop := u.spaceErr = true → ∃ x ∈ u.runs, x.unpacker = .unrar ∧ x.code = 5

theorem space_attempt (c : Cfg) (rs : Nat → Run) (p : Unpacker) (multi : Bool) (pw : Bytes) (u : U) (hw : Whole u) (h : SpaceTrue u) :
    SpaceTrue (executeUnpack c rs p multi pw u) := by
  have hno : ∀ (a b : Bytes), SpaceTrue (noCommand a b u) := by
    intro a b
    unfold noCommand say SpaceTrue
    dsimp only
    rw [(addMessage_eq _ _).2.2.2.1, (addMessage_eq _ _).2.2.2.2.2.2.2.2.1]
    exact h
  cases p
  · dsimp only [executeUnpack]
    unfold executeUnrar
    cases cmdParams c.unrarFile c.unrarCmd with
    | none => exact hno _ _
    | some a =>
      dsimp only
      have hw' : Whole { u with allOk := false, cur := .unrar } := hw
      unfold SpaceTrue
      rw [(sayCode_eq _ _ _).2.2.1, (sayCode_eq _ _ _).2.2.2.1]
      intro q
      have q : (execute .unrar (unrarArgs a pw c.unpackDir) pw (rs u.next) { u with allOk := false, cur := .unrar }).2 = 5 := by
        simpa [unrarResult] using q
      rcases execute_cases .unrar (unrarArgs a pw c.unpackDir) pw (rs u.next) { u with allOk := false, cur := .unrar } rfl hw' with
        ⟨e1, -⟩ | ⟨ht, y, x1, x2, x3, x4, x5, x6, x7, x8⟩
      · rw [e1] at q; cases q
      · refine ⟨y, ?_, x1, by rw [x4, ← x5, q]⟩
        rw [show ∀ e : U × Int, (unrarResult e).runs = e.1.runs from fun _ => rfl, x6.runs]
        simp
  · dsimp only [executeUnpack]
    unfold executeSevenZip
    cases cmdParams c.sevenZipFile c.sevenZipCmd with
    | none => exact hno _ _
    | some a =>
      dsimp only
      have hw' : Whole (say (lit "Executing 7-Zip") { u with allOk := false, cur := .sevenZip }) := whole_message _ hw
      have hs : SpaceTrue (say (lit "Executing 7-Zip") { u with allOk := false, cur := .sevenZip }) := by
        unfold SpaceTrue say
        rw [(addMessage_eq _ _).2.2.2.1, (addMessage_eq _ _).2.2.2.2.2.2.2.2.1]
        exact h
      have hcur : (say (lit "Executing 7-Zip") { u with allOk := false, cur := .sevenZip }).cur = .sevenZip := (addMessage_eq _ _).1
      generalize say (lit "Executing 7-Zip") { u with allOk := false, cur := .sevenZip } = s at *
      unfold SpaceTrue
      rw [(sayCode_eq _ _ _).2.2.1, (sayCode_eq _ _ _).2.2.2.1]
      have hsp : (execute .sevenZip (sevenZipArgs a pw c.unpackDir multi) pw (rs u.next) s).1.spaceErr = s.spaceErr := space_execute _ _ _ _ _
      intro q
      have q : s.spaceErr = true := hsp ▸ q
      obtain ⟨x, hx, g⟩ := hs q
      refine ⟨x, ?_, g⟩
      rw [show ∀ e : U × Int, (sevenZipResult e).runs = e.1.runs from fun _ => rfl]
      rcases execute_cases .sevenZip (sevenZipArgs a pw c.unpackDir multi) pw (rs u.next) s hcur hw' with
        ⟨e1, e2, -⟩ | ⟨ht, y, x1, x2, x3, x4, x5, x6, x7, x8⟩
      · rw [e2]; exact hx
      · rw [x6.runs]; simp [hx]

theorem space_list (c : Cfg) (rs : Nat → Run) (p : Unpacker) (multi : Bool) : ∀ (ls : List Bytes) (u : U), Whole u → SpaceTrue u →
    SpaceTrue (tryList c rs p multi ls u) ∧ Whole (tryList c rs p multi ls u)
  | [], u, hw, h => ⟨h, hw⟩
  | l :: ls, u, hw, h => by
    unfold tryList
    split
    · split
      · exact space_list c rs p multi ls u hw h
      · have w1 : Whole (say (lit "Trying password " ++ trimLine l ++ lit " for " ++ c.name) (resume (rs u.next).torn u)) :=
          whole_message _ (whole_resume _ hw)
        have s1 : SpaceTrue (say (lit "Trying password " ++ trimLine l ++ lit " for " ++ c.name) (resume (rs u.next).torn u)) := by
          unfold SpaceTrue say
          rw [(addMessage_eq _ _).2.2.2.1, (addMessage_eq _ _).2.2.2.2.2.2.2.2.1, (resume_eq _ _).1]
          have : (resume (rs u.next).torn u).spaceErr = u.spaceErr := by
            unfold resume userStopIf userStop stop
            dsimp only
            split
            · split <;> rfl
            · rfl
          rw [this]
          exact h
        exact space_list c rs p multi ls _ (attempt c rs p multi _ _ w1).1 (space_attempt c rs p multi _ _ w1 s1)
    · exact ⟨h, hw⟩

theorem space_archives (c : Cfg) (rs : Nat → Run) (p : Unpacker) (multi : Bool) (u : U) (hw : Whole u) (h : SpaceTrue u) :
    SpaceTrue (unpackArchives c rs p multi u) ∧ Whole (unpackArchives c rs p multi u) := by
  have hpl : ∀ v : U, Whole v → SpaceTrue v → SpaceTrue (passwordList c rs p multi v) ∧ Whole (passwordList c rs p multi v) := by
    intro v wv hv
    unfold passwordList
    split
    · split
      · refine ⟨?_, whole_message _ wv⟩
        unfold SpaceTrue say
        rw [(addMessage_eq _ _).2.2.2.1, (addMessage_eq _ _).2.2.2.2.2.2.2.2.1]
        exact hv
      · exact space_list c rs p multi _ v wv hv
    · exact ⟨hv, wv⟩
  unfold unpackArchives
  split
  · have a := space_attempt c rs p multi c.password u hw h
    have b := (attempt c rs p multi c.password u hw).1
    dsimp only
    split
    · exact ⟨a, b⟩
    · exact hpl _ b a
  · exact hpl _ hw h

/-- "No space" is reported only if unrar has said so. -/
theorem space_explained (c : Cfg) (h : Has) (rs : Nat → Run) (joinOk : Bool) (hs : (runAll c h rs joinOk).spaceErr = true) :
    ∃ x ∈ (runAll c h rs joinOk).runs, x.unpacker = .unrar ∧ x.code = 5 := by
  have hst : ∀ (p : Unpacker) (multi b : Bool) (u : U), Whole u ∧ SpaceTrue u → Whole (stage b (unpackArchives c rs p multi) u) ∧
      SpaceTrue (stage b (unpackArchives c rs p multi) u) := by
    rintro p multi b u ⟨hw, hu⟩
    unfold stage
    split
    · exact (space_archives c rs p multi u hw hu).symm
    · exact ⟨hw, hu⟩
  have h0 : Whole (say (lit "Unpacking " ++ c.name) init) ∧ SpaceTrue (say (lit "Unpacking " ++ c.name) init) := by
    refine ⟨(unpacking_calm c.name).1, ?_⟩
    unfold SpaceTrue say
    rw [(addMessage_eq _ _).2.2.2.1]
    intro q; cases q
  have h3 := hst .sevenZip true h.sevenZipMulti _ (hst .sevenZip false h.sevenZip _ (hst .unrar false (h.rar && !h.direct) _ h0))
  have h4 : SpaceTrue (runAll c h rs joinOk) := by
    unfold runAll
    dsimp only
    generalize stage h.sevenZipMulti _ _ = v at *
    unfold stage
    split
    · exact h3.2
    · exact h3.2
  exact h4 hs

example : (runAll demo rarOnly (fun _ => ⟨false, false, [], false, 5⟩) true).spaceErr = true := by decide +kernel

/-! ### All passwords of the list -/

/-- If after the list the password is still wrong, and nothing else has failed, then each password of the list was tried. -/
theorem all_tried (c : Cfg) (rs : Nat → Run) (p : Unpacker) (multi : Bool) : ∀ (ls : List Bytes) (u : U), Whole u →
    (∀ pw ∈ (ls.map trimLine).filter (· ≠ []), ¬ dataError <:+ tryText c pw) → goesOn (tryList c rs p multi ls u) = true →
    ∃ new, (tryList c rs p multi ls u).runs = u.runs ++ new ∧ new.map (·.password) = (ls.map trimLine).filter (· ≠ [])
  | [], u, _, _, _ => ⟨[], by simp [tryList], by simp⟩
  | l :: ls, u, hw, hq, hg => by
    unfold tryList at hg ⊢
    by_cases h1 : goesOn u = true
    · rw [if_pos h1] at hg ⊢
      by_cases hl : trimLine l = []
      · rw [if_pos hl] at hg ⊢
        have e : ((l :: ls).map trimLine).filter (· ≠ []) = (ls.map trimLine).filter (· ≠ []) := by simp [hl]
        rw [e] at hq ⊢
        exact all_tried c rs p multi ls u hw hq hg
      · rw [if_neg hl] at hg ⊢
        have e : ((l :: ls).map trimLine).filter (· ≠ []) = trimLine l :: (ls.map trimLine).filter (· ≠ []) := by simp [hl]
        rw [e] at hq ⊢
        obtain ⟨hw1, u', hu, hcalm, ha⟩ := tryOne_cases c rs p multi (trimLine l) u hw
        generalize tryOne c rs p multi (trimLine l) u = v at *
        obtain ⟨new, n1, n2⟩ := all_tried c rs p multi ls v hw1 (fun pw h => hq pw (List.mem_cons_of_mem _ h)) hg
        have hend : goesOn v = false → False := by
          intro q
          have : tryList c rs p multi ls v = v := by
            cases ls with
            | nil => rfl
            | cons a ls => simp [tryList, q]
          rw [this, q] at hg
          cases hg
        cases ha with
        | none h1 h2 h3 h4 => exact (hend (by simp [goesOn, h4])).elim
        | skipped h1 h2 h3 h4 =>
          have hc := h4 (hcalm (hq _ (by simp)))
          exact (hend (by simp [goesOn, hc.1, hc.2])).elim
        | ran x g1 g2 g3 g4 g5 g6 =>
          exact ⟨x :: new, by rw [n1, g4, hu]; simp, by rw [List.map_cons, n2, g3]⟩
    · rw [if_neg h1] at hg
      exact absurd hg h1

theorem fgets_length : ∀ (n : Nat) (b : Bytes), (Text.fgets n b).1.length ≤ n
  | 0, _ => by simp [Text.fgets]
  | n + 1, [] => by simp [Text.fgets]
  | n + 1, c :: r => by
    have := fgets_length n r
    unfold Text.fgets
    split <;> simp <;> omega

theorem password_length (b pw : Bytes) (h : pw ∈ passwords b) : pw.length ≤ 510 := by
  have hl : ∀ (k : Nat) (b l : Bytes), l ∈ fileLines k b → l.length ≤ 510 := by
    intro k
    induction k with
    | zero => intro b l h; simp [fileLines] at h
    | succ k ih =>
      intro b l h
      unfold fileLines at h
      split at h
      · simp at h
      · rcases List.mem_cons.1 h with rfl | h
        · exact fgets_length 510 b
        · exact ih _ _ h
  unfold passwords at h
  rw [List.mem_filter, List.mem_map] at h
  obtain ⟨⟨l, h1, rfl⟩, -⟩ := h
  have h2 := hl _ _ _ h1
  unfold trimLine
  rw [List.length_reverse]
  have h3 : ∀ (f : UInt8 → Bool) (x : Bytes), (x.dropWhile f).length ≤ x.length := by
    intro f x
    induction x with
    | nil => simp
    | cons a x ih =>
      rw [List.dropWhile_cons]
      split
      · simp only [List.length_cons]; omega
      · simp
  have h4 := h3 (fun b => b == 10 || b == 13) (cstr l).reverse
  have h5 : (cstr l).length ≤ l.length := by
    clear h1 h2 h4 h3 hl
    induction l with
    | nil => simp [cstr]
    | cons a l ih => unfold cstr; split <;> simp only [List.length_cons, List.length_nil] <;> omega
  rw [List.length_reverse] at h4
  omega

/-- The messages about the attempts are harmless for each job whose name is not too long and does not end with `?`. -/
theorem quiet_of_name (c : Cfg) (n : Bytes) (z : UInt8) (hn : c.name = n ++ [z]) (hl : c.name.length ≤ 490) (hz : z ≠ 63) : Quiet c := by
  intro b _ pw hpw q
  have h1 := password_length b pw hpw
  have e1 : (lit "Trying password ").length = 16 := by decide +kernel
  have e2 : (lit " for ").length = 5 := by decide +kernel
  have e : tryText c pw = (lit "Trying password " ++ pw ++ lit " for " ++ n) ++ [z] := by
    unfold tryText
    rw [List.take_of_length_le (by simp only [List.length_append]; omega), hn, ← List.append_assoc]
  rw [e] at q
  obtain ⟨a, ha⟩ := q
  have hd : dataError = lit "Data Error in encrypted file. Wrong password" ++ [63] := by decide +kernel
  rw [hd, ← List.append_assoc] at ha
  have := List.append_inj_right' ha rfl
  simp at this
  exact hz this.symm

example : Quiet demo := quiet_of_name demo (lit "jo") 98 (by decide +kernel) (by decide +kernel) (by decide +kernel)

/-- A job whose name ends with the message: after the first password nothing is tried, although the second one is right. -/
theorem loud_name : ∃ c : Cfg, c.passFile = some (lit "one\ntwo\n") ∧
    (runAll c ⟨false, false, true, false, false⟩ (fun n => if n < 2 then ⟨false, false, [⟨false, lit "ERROR: Data Error in encrypted file. Wrong password?\n", false⟩], false, 2⟩
      else ⟨false, false, [⟨false, lit "Everything is Ok\n", false⟩], false, 0⟩) true).runs.length = 1 ∧
    (runAll { c with name := lit "job" } ⟨false, false, true, false, false⟩ (fun n => if n < 2 then ⟨false, false, [⟨false, lit "ERROR: Data Error in encrypted file. Wrong password?\n", false⟩], false, 2⟩
      else ⟨false, false, [⟨false, lit "Everything is Ok\n", false⟩], false, 0⟩) true).ok = true :=
  ⟨{ demo with name := lit "Data Error in encrypted file. Wrong password?" }, rfl, by decide +kernel, by decide +kernel⟩

/-! ### The status of the job -/

/-- The job gets the status of a successful unpack only if each kind of archives was unpacked completely. -/
theorem status_sound (o : PostJob.Opts) (w : PostJob.Work) (j : PostJob.Job) (c : Cfg) (h : Has) (rs : Nat → Run) (joinOk hidden moved : Bool)
    (hw : w.unpack = work (runAll c h rs joinOk) h hidden moved) (h0 : j.post.lastUnpack ≠ .success) (hs : (PostJob.unpackRun o w j).nzb.unpack = .success)
    (hj : j.nzb.unpack ≠ .success) :
    moved = true ∧
    (h.rar = true → h.direct = false → ∃ x ∈ (runAll c h rs joinOk).runs, Good x ∧ argsOf c .unrar false x.password = some x.args) ∧
    (h.sevenZip = true → ∃ x ∈ (runAll c h rs joinOk).runs, Good x ∧ argsOf c .sevenZip false x.password = some x.args) ∧
    (h.sevenZipMulti = true → ∃ x ∈ (runAll c h rs joinOk).runs, Good x ∧ argsOf c .sevenZip true x.password = some x.args) ∧
    (h.splitted = true → joinOk = true) := by
  have key : (runAll c h rs joinOk).ok = true ∧ moved = true := by
    unfold PostJob.unpackRun at hs
    dsimp only at hs
    split at hs
    · exact absurd hs h0
    · split at hs
      · unfold PostJob.unpackCompleted at hs
        dsimp only at hs
        split at hs
        · rename_i q
          rw [hw] at q
          simpa [work] using q
        · split at hs
          · exact absurd hs hj
          · exfalso
            dsimp only at hs
            unfold PostJob.unpackFailure at hs
            split at hs
            · cases hs
            · split at hs <;> cases hs
      · split at hs
        · split at hs
          · exact absurd hs hj
          · split at hs <;> cases hs
        · cases hs
  exact ⟨key.2, success_sound c h rs joinOk key.1⟩

end Verif.UnpackRun
