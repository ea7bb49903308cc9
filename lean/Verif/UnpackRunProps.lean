import Verif.UnpackRun
import Verif.DirectUnpackText
import Verif.OptLoadProps

/-
What the unpackers are started with and what their results mean (C123).
-/
namespace Verif.UnpackRun
open CStr

/-! ### Specification -/

/-- The message of success. -/
def SaysOk : Unpacker → Bytes → Prop
  | .unrar, m => lit "Unrar: All OK" <+: m
  | .sevenZip, m => lit "7-Zip: Everything is Ok" <+: m

/-- The messages about a wrong password. -/
def SaysPassword : Unpacker → Bytes → Prop
  | .unrar, m => (lit "Unrar: Checksum error in the encrypted fil" <+: m ∨ lit "Unrar: CRC failed in the encrypted file" <+: m) ∨
      (lit "Unrar: The specified password is incorrect." <+: m ∨ lit "Unrar: Incorrect password for" <+: m)
  | .sevenZip, m => lit "Data Error in encrypted file. Wrong password?" <:+ m

/-- The messages about damaged or missing volumes. -/
def SaysDamage (m : Bytes) : Prop :=
  lit " : packed data CRC failed in volume" <:+: m ∨ lit " : packed data checksum error in volume" <:+: m ∨
  (lit " - CRC failed" <:+ m ∧ m ≠ lit " - CRC failed") ∨ (lit " - checksum failed" <:+ m ∧ m ≠ lit " - checksum failed") ∨
  lit "Unrar: WARNING: You need to start extraction from a previous volume" <+: m

/-- A process has unpacked everything: it has returned 0 and said so, has not complained and was not terminated. -/
structure Good (x : Ran) : Prop where
  code : x.code = 0
  said : ∃ m ∈ x.said, SaysOk x.unpacker m
  clean : ∀ m ∈ x.said, ¬ SaysPassword x.unpacker m ∧ ¬ SaysDamage m
  whole : x.cut = false

theorem saysOk_iff (p : Unpacker) (m : Bytes) : saysOk p m = true ↔ SaysOk p m := by
  cases p <;> simp [saysOk, SaysOk, startsWith]

theorem contains_iff (p m : Bytes) : OptStore.contains p m = true ↔ p <:+: m := by
  rw [OptStore.contains_iff]
  constructor
  · rintro ⟨a, b, rfl⟩; exact ⟨a, b, rfl⟩
  · rintro ⟨a, b, h⟩; exact ⟨a, b, h.symm⟩

theorem endsMore_iff' (p m : Bytes) : DirectUnpack.endsMore p m = true ↔ p <:+ m ∧ m ≠ p := by
  unfold DirectUnpack.endsMore
  rw [Bool.and_eq_true, decide_eq_true_iff, List.isSuffixOf_iff_suffix]
  constructor
  · rintro ⟨h, g⟩
    exact ⟨g, fun e => by rw [e] at h; omega⟩
  · rintro ⟨g, h⟩
    refine ⟨?_, g⟩
    rcases Nat.lt_or_ge p.length m.length with q | q
    · exact q
    · exact absurd (g.eq_of_length_le q).symm h

theorem saysDamage_iff (m : Bytes) : saysDamage m = true ↔ SaysDamage m := by
  simp only [saysDamage, SaysDamage, Bool.or_eq_true, contains_iff, endsMore_iff', startsWith, List.isPrefixOf_iff_prefix, or_assoc]

/-- The messages of `noteErrors`. -/
def saysWrong (p : Unpacker) (m : Bytes) : Bool :=
  match p with
  | .unrar => saysDecrypt m || saysPassword m
  | .sevenZip => decide (45 ≤ m.length) && saysData m

theorem saysWrong_iff (p : Unpacker) (m : Bytes) : saysWrong p m = true ↔ SaysPassword p m := by
  cases p
  · have e : (lit "Unrar: Checksum error in the encrypted file").take 42 = lit "Unrar: Checksum error in the encrypted fil" := by decide +kernel
    simp only [saysWrong, SaysPassword, saysDecrypt, saysPassword, Bool.or_eq_true, startsWith, List.isPrefixOf_iff_prefix, e]
  · simp only [saysWrong, SaysPassword, saysData, dataError, Bool.and_eq_true, decide_eq_true_iff, List.isSuffixOf_iff_suffix]
    constructor
    · exact fun h => h.2
    · refine fun h => ⟨?_, h⟩
      have := h.length_le
      have e : (lit "Data Error in encrypted file. Wrong password?").length = 45 := by decide +kernel
      omega

/-! ### Messages -/

theorem addMessage_eq (t : Bytes) (u : U) :
    (addMessage t u).cur = u.cur ∧ (addMessage t u).ok = u.ok ∧ (addMessage t u).startErr = u.startErr ∧ (addMessage t u).spaceErr = u.spaceErr ∧
    (addMessage t u).listTried = u.listTried ∧ (addMessage t u).pid = u.pid ∧ (addMessage t u).alive = u.alive ∧ (addMessage t u).said = u.said ∧
    (addMessage t u).runs = u.runs ∧ (addMessage t u).asked = u.asked ∧ (addMessage t u).next = u.next := by
  unfold addMessage noteOk checkDamage noteErrors stop
  cases hc : u.cur <;> dsimp only <;> split <;> simp_all

theorem addMessage_flags (t : Bytes) (u : U) :
    (addMessage t u).allOk = (u.allOk || saysOk u.cur t) ∧
    ((addMessage t u).decryptErr || (addMessage t u).passErr) = (u.decryptErr || u.passErr || saysWrong u.cur t) := by
  unfold addMessage noteOk checkDamage noteErrors stop saysWrong
  cases hc : u.cur <;> dsimp only <;> split <;> simp_all <;> grind

/-- Whether a message stops the process. -/
theorem addMessage_stops (t : Bytes) (u : U) :
    (addMessage t u).stopped = (u.stopped || (u.decryptErr || u.passErr || saysWrong u.cur t || saysDamage t)) ∧
    (addMessage t u).terminated = (u.terminated || (!u.stopped && (u.decryptErr || u.passErr || saysWrong u.cur t || saysDamage t))) ∧
    (addMessage t u).autoTerm = (u.autoTerm || (!u.stopped && (u.decryptErr || u.passErr || saysWrong u.cur t || saysDamage t))) := by
  unfold addMessage noteOk checkDamage noteErrors stop saysWrong
  cases hc : u.cur <;> dsimp only <;> split <;> simp_all <;> grind

/-! ### A process -/

/-- What is known while a process runs, if it was not stopped before: `a` - the flag of success, `w` - the flags of a wrong password, at its
start. -/
structure During (p : Unpacker) (a w : Bool) (runs : List Ran) (n : Nat) (u : U) : Prop where
  cur : u.cur = p
  ok : u.allOk = (a || u.said.any (saysOk p))
  wrong : (u.decryptErr || u.passErr) = (w || u.said.any (saysWrong p))
  halt : u.stopped = u.terminated
  bad : (∃ m ∈ u.said, saysWrong p m = true ∨ saysDamage m = true) → u.terminated = true
  flag : u.said ≠ [] → (u.decryptErr || u.passErr) = true → u.terminated = true
  runs : u.runs = runs
  next : u.next = n

theorem during_stop {p : Unpacker} {a w : Bool} {rs : List Ran} {n : Nat} {u : U} (b : Bool) (h : During p a w rs n u) :
    During p a w rs n (userStopIf b u) := by
  obtain ⟨h1, h2, h3, h4, h5, h8, h6, h7⟩ := h
  unfold userStopIf userStop stop
  split
  · constructor <;> grind
  · exact ⟨h1, h2, h3, h4, h5, h8, h6, h7⟩

theorem during_message {p : Unpacker} {a w : Bool} {rs : List Ran} {n : Nat} {u : U} (t : Bytes) (h : During p a w rs n u) :
    During p a w rs n (addMessage t { u with said := u.said ++ [t] }) := by
  obtain ⟨h1, h2, h3, h4, h5, h8, h6, h7⟩ := h
  have e := addMessage_eq t { u with said := u.said ++ [t] }
  have f := addMessage_flags t { u with said := u.said ++ [t] }
  have g := addMessage_stops t { u with said := u.said ++ [t] }
  dsimp only at e f g
  constructor <;> grind

theorem during_line {p : Unpacker} {a w : Bool} {rs : List Ran} {n : Nat} {u : U} (l : Line) (h : During p a w rs n u) :
    During p a w rs n (onLine p u l) := by
  unfold onLine
  split
  · exact h
  · dsimp only
    apply during_stop
    split
    · exact during_stop _ h
    · exact during_message _ (during_stop _ h)

theorem during_lines {p : Unpacker} {a w : Bool} {rs : List Ran} {n : Nat} (ls : List Line) : ∀ {u : U}, During p a w rs n u →
    During p a w rs n (ls.foldl (onLine p) u) := by
  induction ls with
  | nil => exact fun h => h
  | cons l ls ih => exact fun h => ih (during_line l h)

/-- What a call of Execute does: either nothing is started, because the job was stopped, or there is a process with these results. -/
theorem execute_cases (p : Unpacker) (args : List Bytes) (pw : Bytes) (r : Run) (u : U) (hc : u.cur = p) (hh : u.stopped = true → u.terminated = true) :
    ((execute p args pw r u).2 = 0 ∧ (execute p args pw r u).1.runs = u.runs ∧ (execute p args pw r u).1.terminated = true ∧
      (execute p args pw r u).1.decryptErr = u.decryptErr ∧ (execute p args pw r u).1.passErr = u.passErr ∧
      (execute p args pw r u).1.next = u.next + 1 ∧ (execute p args pw r u).1.autoTerm = u.autoTerm) ∨
    (u.terminated = false ∧ ∃ x : Ran, x.unpacker = p ∧ x.args = args ∧ x.password = pw ∧ x.code = r.code ∧ (execute p args pw r u).2 = r.code ∧
      During p u.allOk (u.decryptErr || u.passErr) (u.runs ++ [x]) (u.next + 1) (execute p args pw r u).1 ∧
      x.said = (execute p args pw r u).1.said ∧ x.cut = (execute p args pw r u).1.terminated) := by
  unfold execute
  dsimp only
  split
  · left
    refine ⟨rfl, ?_⟩
    unfold userStopIf userStop stop
    split <;> simp_all [userStopIf]
  · rename_i ht
    right
    have he : r.early = false := by
      cases h : r.early
      · rfl
      · simp [userStopIf, h, userStop, stop] at ht
    rw [he] at ht ⊢
    have ht : u.terminated = false := by simpa [userStopIf] using ht
    have hs : u.stopped = false := by
      cases h : u.stopped
      · rfl
      · rw [hh h] at ht; cases ht
    refine ⟨ht, ?_⟩
    have h0 : During p u.allOk (u.decryptErr || u.passErr) u.runs (u.next + 1)
        { userStopIf false { u with next := u.next + 1 } with pid := true, alive := true, said := [] } := by
      constructor <;> simp [userStopIf, hc, ht, hs]
    have h1 := during_lines r.lines h0
    have h2 : During p u.allOk (u.decryptErr || u.passErr) u.runs (u.next + 1)
        { r.lines.foldl (onLine p) { userStopIf false { u with next := u.next + 1 } with pid := true, alive := true, said := [] } with alive := false } := by
      obtain ⟨g1, g2, g3, g4, g5, g8, g6, g7⟩ := h1
      exact ⟨g1, g2, g3, g4, g5, g8, g6, g7⟩
    have h3 := during_stop r.late h2
    generalize userStopIf r.late _ = v at h3 ⊢
    refine ⟨⟨p, args, pw, v.said, r.code, v.terminated⟩, rfl, rfl, rfl, rfl, rfl, ?_, rfl, rfl⟩
    obtain ⟨g1, g2, g3, g4, g5, g8, g6, g7⟩ := h3
    exact ⟨g1, g2, g3, g4, g5, g8, by rw [← g6], g7⟩

/-! ### An attempt -/

/-- The arguments of an attempt, `none` if the option has no command. -/
def argsOf (c : Cfg) (p : Unpacker) (multi : Bool) (pw : Bytes) : Option (List Bytes) :=
  match p with
  | .unrar => (cmdParams c.unrarFile c.unrarCmd).map (fun a => unrarArgs a pw c.unpackDir)
  | .sevenZip => (cmdParams c.sevenZipFile c.sevenZipCmd).map (fun a => sevenZipArgs a pw c.unpackDir multi)

/-- Nothing was stopped half. -/
def Whole (u : U) : Prop := u.stopped = true → u.terminated = true

/-- No wrong password was reported. -/
def Calm (u : U) : Prop := u.decryptErr = false ∧ u.passErr = false

theorem whole_message {u : U} (t : Bytes) (h : Whole u) : Whole (addMessage t u) := by
  have g := addMessage_stops t u
  unfold Whole at *
  grind

theorem whole_code {u : U} (t : Bytes) (k : Int) (h : Whole u) : Whole (sayCode t k u) := by
  unfold sayCode say
  split
  · exact whole_message _ h
  · exact h

theorem sayCode_eq (t : Bytes) (k : Int) (u : U) : (sayCode t k u).ok = u.ok ∧ (sayCode t k u).startErr = u.startErr ∧
    (sayCode t k u).spaceErr = u.spaceErr ∧ (sayCode t k u).runs = u.runs ∧ (sayCode t k u).next = u.next := by
  unfold sayCode say
  split
  · have e := addMessage_eq ((t ++ decInt k).take 1023) u
    grind
  · exact ⟨rfl, rfl, rfl, rfl, rfl⟩

theorem sayCode_ok (t : Bytes) (k : Int) (u : U) (h : u.ok = true) : sayCode t k u = u := by
  unfold sayCode
  simp [h]

theorem sayCode_zero (t : Bytes) (u : U) : sayCode t 0 u = u := by
  unfold sayCode
  simp

theorem executing_calm (u : U) (h : Calm u) (hc : u.cur = .sevenZip) : Calm (say (lit "Executing 7-Zip") u) := by
  obtain ⟨h1, h2⟩ := h
  have w : saysWrong .sevenZip ((lit "Executing 7-Zip").take 1023) = false := by decide +kernel
  have e := addMessage_flags ((lit "Executing 7-Zip").take 1023) u
  rw [hc, w, h1, h2] at e
  unfold Calm say
  grind

theorem good_of_during {p : Unpacker} {w : Bool} {rs : List Ran} {n : Nat} {v : U} {x : Ran} (h : During p false w rs n v) (hp : x.unpacker = p)
    (hs : x.said = v.said) (hc : x.cut = v.terminated) : Good x ↔ (x.code = 0 ∧ v.allOk = true ∧ v.terminated = false) := by
  constructor
  · rintro ⟨g1, ⟨m, hm, g2⟩, _, g4⟩
    refine ⟨g1, ?_, hc ▸ g4⟩
    rw [h.ok, Bool.false_or, List.any_eq_true]
    exact ⟨m, hs ▸ hm, (saysOk_iff _ _).2 (hp ▸ g2)⟩
  · rintro ⟨g1, g2, g3⟩
    rw [h.ok, Bool.false_or, List.any_eq_true] at g2
    obtain ⟨m, hm, g2⟩ := g2
    refine ⟨g1, ⟨m, hs ▸ hm, hp ▸ (saysOk_iff _ _).1 g2⟩, ?_, hc ▸ g3⟩
    intro k hk
    rw [hs] at hk
    constructor
    · intro q
      rw [hp] at q
      rw [h.bad ⟨k, hk, .inl ((saysWrong_iff _ _).2 q)⟩] at g3
      cases g3
    · intro q
      rw [h.bad ⟨k, hk, .inr ((saysDamage_iff _).2 q)⟩] at g3
      cases g3

/-- The outcomes of one attempt. -/
inductive Attempt (c : Cfg) (p : Unpacker) (multi : Bool) (pw : Bytes) (u v : U) : Prop where
  /-- There is no command. -/
  | none (h : argsOf c p multi pw = none) (runs : v.runs = u.runs) (ok : v.ok = false) (err : v.startErr = true)
  /-- The job was stopped before. -/
  | skipped (runs : v.runs = u.runs) (ok : v.ok = false) (term : v.terminated = true) (calm : Calm u → Calm v)
  /-- A process was started. -/
  | ran (x : Ran) (hp : x.unpacker = p) (args : argsOf c p multi pw = some x.args) (pass : x.password = pw) (runs : v.runs = u.runs ++ [x])
      (ok : v.ok = true ↔ Good x) (calm : v.ok = true → Calm v)

theorem attempt_unrar (c : Cfg) (multi : Bool) (pw : Bytes) (r : Run) (u : U) (h : Whole u) :
    Whole (executeUnrar c pw r u) ∧ Attempt c .unrar multi pw u (executeUnrar c pw r u) := by
  unfold executeUnrar
  cases ha : cmdParams c.unrarFile c.unrarCmd with
  | none =>
    dsimp only
    unfold noCommand say
    refine ⟨whole_message _ h, .none (by simp [argsOf, ha]) ?_ rfl rfl⟩
    exact (addMessage_eq _ u).2.2.2.2.2.2.2.2.1
  | some a =>
    dsimp only
    have hw : Whole { u with allOk := false, cur := .unrar } := h
    rcases execute_cases .unrar (unrarArgs a pw c.unpackDir) pw r { u with allOk := false, cur := .unrar } rfl hw with
      ⟨e1, e2, e3, e4, e5, e6, e7⟩ | ⟨ht, x, x1, x2, x3, x4, x5, x6, x7, x8⟩
    · generalize execute .unrar _ pw r _ = e at *
      rw [e1, sayCode_zero]
      have ho : (unrarResult e).ok = false := by simp [unrarResult, e3]
      refine ⟨fun _ => by simp [unrarResult, e3], .skipped ?_ ho ?_ ?_⟩
      · simpa [unrarResult] using e2
      · simp [unrarResult, e3]
      · rintro ⟨h1, h2⟩
        constructor
        · simpa [unrarResult, h1] using e4
        · simp [unrarResult, e5, h2, e1]
    · generalize execute .unrar _ pw r _ = e at *
      have hr : (unrarResult e).ok = true ↔ Good x := by
        rw [good_of_during x6 x1 x7 x8, x4]
        simp [unrarResult, x5, and_assoc]
      have hwh : Whole (unrarResult e) := fun q => by
        have := x6.halt
        simp_all [unrarResult]
      refine ⟨whole_code _ _ hwh, .ran x x1 (by simp [argsOf, ha, x2]) x3 ?_ ?_ ?_⟩
      · rw [(sayCode_eq _ _ _).2.2.2.1]
        exact x6.runs
      · rw [(sayCode_eq _ _ _).1]
        exact hr
      · intro ho
        rw [(sayCode_eq _ _ _).1] at ho
        rw [sayCode_ok _ _ _ ho]
        have ho' : e.2 = 0 ∧ e.1.allOk = true ∧ e.1.terminated = false := by simpa [unrarResult, and_assoc] using ho
        have hne : e.1.said ≠ [] := by
          intro q
          have := x6.ok
          rw [q] at this
          simp [ho'.2.1] at this
        have hf : (e.1.decryptErr || e.1.passErr) = false := by
          cases q : (e.1.decryptErr || e.1.passErr)
          · rfl
          · rw [x6.flag hne q] at ho'; cases ho'.2.2
        rw [Bool.or_eq_false_iff] at hf
        exact ⟨hf.1, by simp [unrarResult, hf.2, ho'.1]⟩

theorem attempt_sevenZip (c : Cfg) (multi : Bool) (pw : Bytes) (r : Run) (u : U) (h : Whole u) :
    Whole (executeSevenZip c pw multi r u) ∧ Attempt c .sevenZip multi pw u (executeSevenZip c pw multi r u) := by
  unfold executeSevenZip
  cases ha : cmdParams c.sevenZipFile c.sevenZipCmd with
  | none =>
    dsimp only
    unfold noCommand say
    refine ⟨whole_message _ h, .none (by simp [argsOf, ha]) ?_ rfl rfl⟩
    exact (addMessage_eq _ u).2.2.2.2.2.2.2.2.1
  | some a =>
    dsimp only
    have hw : Whole (say (lit "Executing 7-Zip") { u with allOk := false, cur := .sevenZip }) := whole_message _ h
    have hq := addMessage_eq ((lit "Executing 7-Zip").take 1023) { u with allOk := false, cur := .sevenZip }
    have hcalm : Calm u → Calm (say (lit "Executing 7-Zip") { u with allOk := false, cur := .sevenZip }) := fun q => executing_calm _ q rfl
    have hall : (say (lit "Executing 7-Zip") { u with allOk := false, cur := .sevenZip }).allOk = false := by
      have w : saysOk .sevenZip ((lit "Executing 7-Zip").take 1023) = false := by decide +kernel
      rw [say, (addMessage_flags _ _).1, w]
      rfl
    have hcur : (say (lit "Executing 7-Zip") { u with allOk := false, cur := .sevenZip }).cur = .sevenZip := hq.1
    have hruns : (say (lit "Executing 7-Zip") { u with allOk := false, cur := .sevenZip }).runs = u.runs := hq.2.2.2.2.2.2.2.2.1
    generalize say (lit "Executing 7-Zip") { u with allOk := false, cur := .sevenZip } = s at *
    rcases execute_cases .sevenZip (sevenZipArgs a pw c.unpackDir multi) pw r s hcur hw with
      ⟨e1, e2, e3, e4, e5, e6, e7⟩ | ⟨ht, x, x1, x2, x3, x4, x5, x6, x7, x8⟩
    · generalize execute .sevenZip _ pw r _ = e at *
      rw [e1, sayCode_zero]
      have ho : (sevenZipResult e).ok = false := by simp [sevenZipResult, e3]
      refine ⟨fun _ => by simp [sevenZipResult, e3], .skipped ?_ ho ?_ ?_⟩
      · rw [← hruns]
        simpa [sevenZipResult] using e2
      · simp [sevenZipResult, e3]
      · intro q
        obtain ⟨h1, h2⟩ := hcalm q
        constructor
        · simpa [sevenZipResult, h1] using e4
        · simp [sevenZipResult, e5, h2]
    · generalize execute .sevenZip _ pw r _ = e at *
      rw [hall] at x6
      have hr : (sevenZipResult e).ok = true ↔ Good x := by
        rw [good_of_during x6 x1 x7 x8, x4]
        simp [sevenZipResult, x5, and_assoc]
      have hwh : Whole (sevenZipResult e) := fun q => by
        have := x6.halt
        simp_all [sevenZipResult]
      refine ⟨whole_code _ _ hwh, .ran x x1 (by simp [argsOf, ha, x2]) x3 ?_ ?_ ?_⟩
      · rw [(sayCode_eq _ _ _).2.2.2.1, ← hruns]
        exact x6.runs
      · rw [(sayCode_eq _ _ _).1]
        exact hr
      · intro ho
        rw [(sayCode_eq _ _ _).1] at ho
        rw [sayCode_ok _ _ _ ho]
        have ho' : e.2 = 0 ∧ e.1.allOk = true ∧ e.1.terminated = false := by simpa [sevenZipResult, and_assoc] using ho
        have hne : e.1.said ≠ [] := by
          intro q
          have := x6.ok
          rw [q] at this
          simp [ho'.2.1] at this
        have hf : (e.1.decryptErr || e.1.passErr) = false := by
          cases q : (e.1.decryptErr || e.1.passErr)
          · rfl
          · rw [x6.flag hne q] at ho'; cases ho'.2.2
        rw [Bool.or_eq_false_iff] at hf
        exact hf

/-! ### Several attempts -/

theorem attempt (c : Cfg) (rs : Nat → Run) (p : Unpacker) (multi : Bool) (pw : Bytes) (u : U) (h : Whole u) :
    Whole (executeUnpack c rs p multi pw u) ∧ Attempt c p multi pw u (executeUnpack c rs p multi pw u) := by
  cases p
  · exact attempt_unrar c multi pw _ u h
  · exact attempt_sevenZip c multi pw _ u h

/-- The passwords in the file: its lines without ends of line, without empty lines. -/
def passwords (b : Bytes) : List Bytes := ((fileLines (b.length + 1) b).map trimLine).filter (· ≠ [])

/-- The passwords in question, in their order: the password of the job, which may be empty, except if this was tried before; then those of the
file if the job has no password. -/
def candidates (c : Cfg) : List Bytes :=
  (if c.tried then [] else [c.password]) ++
    (if c.password = [] ∧ c.passOpt ≠ [] then match c.passFile with
      | some b => passwords b
      | none => [] else [])

def tryText (c : Cfg) (pw : Bytes) : Bytes := (lit "Trying password " ++ pw ++ lit " for " ++ c.name).take 1023

/-- The messages about the attempts do not look like a message of 7-Zip. -/
def Quiet (c : Cfg) : Prop := ∀ b, c.passFile = some b → ∀ pw ∈ passwords b, ¬ dataError <:+ tryText c pw

theorem whole_resume {u : U} (b : Bool) (h : Whole u) : Whole (resume b u) := by
  unfold resume Whole at *
  dsimp only
  split
  · simp
  · exact h

theorem resume_eq (b : Bool) (u : U) : (resume b u).runs = u.runs ∧ (resume b u).ok = u.ok ∧ (resume b u).startErr = u.startErr ∧
    (resume b u).spaceErr = u.spaceErr ∧ (resume b u).cur = u.cur ∧ (resume b u).next = u.next ∧ Calm (resume b u) := by
  unfold resume userStopIf userStop stop Calm
  dsimp only
  split <;> (try split) <;> simp

theorem trying_unrar (c : Cfg) (pw : Bytes) : saysWrong .unrar (tryText c pw) = false := by
  have e : tryText c pw = 84 :: ((lit "rying password " ++ pw ++ lit " for " ++ c.name).take 1022) := by
    have : lit "Trying password " = 84 :: lit "rying password " := by decide +kernel
    simp [tryText, this]
  rw [e]
  have a1 : (lit "Unrar: Checksum error in the encrypted file").take 42 = 85 :: ((lit "nrar: Checksum error in the encrypted file").take 41) := by decide +kernel
  have a2 : lit "Unrar: CRC failed in the encrypted file" = 85 :: lit "nrar: CRC failed in the encrypted file" := by decide +kernel
  have a3 : lit "Unrar: The specified password is incorrect." = 85 :: lit "nrar: The specified password is incorrect." := by decide +kernel
  have a4 : lit "Unrar: Incorrect password for" = 85 :: lit "nrar: Incorrect password for" := by decide +kernel
  simp only [saysWrong, saysDecrypt, saysPassword, startsWith, a1, a2, a3, a4, List.isPrefixOf]
  simp only [show ((85 : UInt8) == 84) = false from rfl, Bool.false_and, Bool.or_self]

theorem trying_calm (c : Cfg) (pw : Bytes) (u : U) (hq : ¬ dataError <:+ tryText c pw) (h : Calm u) : Calm (addMessage (tryText c pw) u) := by
  have w : saysWrong u.cur (tryText c pw) = false := by
    cases hc : u.cur
    · exact trying_unrar c pw
    · cases hw : saysWrong .sevenZip (tryText c pw)
      · rfl
      · exact absurd ((saysWrong_iff _ _).1 hw) hq
  have e := (addMessage_flags (tryText c pw) u).2
  rw [w, h.1, h.2] at e
  unfold Calm
  grind

/-- One password. -/
theorem tryOne_cases (c : Cfg) (rs : Nat → Run) (p : Unpacker) (multi : Bool) (pw : Bytes) (u : U) (h : Whole u) :
    Whole (tryOne c rs p multi pw u) ∧ ∃ u', u'.runs = u.runs ∧ (¬ dataError <:+ tryText c pw → Calm u') ∧ Attempt c p multi pw u' (tryOne c rs p multi pw u) := by
  unfold tryOne say
  dsimp only
  have hw := whole_message ((lit "Trying password " ++ pw ++ lit " for " ++ c.name).take 1023) (whole_resume (rs u.next).torn h)
  have ha := attempt c rs p multi pw _ hw
  refine ⟨ha.1, _, ?_, fun q => trying_calm c pw _ q (resume_eq _ u).2.2.2.2.2.2, ha.2⟩
  rw [(addMessage_eq _ _).2.2.2.2.2.2.2.2.1]
  exact (resume_eq _ u).1

/-- A sequence of attempts with one unpacker. -/
structure Tries (c : Cfg) (p : Unpacker) (multi : Bool) (new : List Ran) (v : U) : Prop where
  args : ∀ x ∈ new, x.unpacker = p ∧ argsOf c p multi x.password = some x.args
  failed : ∀ x ∈ new.dropLast, ¬ Good x
  ok : v.ok = true → Calm v ∧ ∃ x, new.getLast? = some x ∧ Good x

theorem tries_cons {c : Cfg} {p : Unpacker} {multi : Bool} {new : List Ran} {v : U} {x : Ran} (h : Tries c p multi new v) (hx : ¬ Good x)
    (hp : x.unpacker = p) (ha : argsOf c p multi x.password = some x.args) : Tries c p multi (x :: new) v := by
  refine ⟨?_, ?_, ?_⟩
  · intro y hy
    rcases List.mem_cons.1 hy with rfl | hy
    · exact ⟨hp, ha⟩
    · exact h.args y hy
  · intro y hy
    cases new with
    | nil => simp at hy
    | cons z new =>
      rw [List.dropLast_cons_of_ne_nil (by simp)] at hy
      rcases List.mem_cons.1 hy with rfl | hy
      · exact hx
      · exact h.failed y hy
  · intro ho
    obtain ⟨g, y, hy, gy⟩ := h.ok ho
    refine ⟨g, y, ?_, gy⟩
    cases new with
    | nil => simp at hy
    | cons z new => rw [List.getLast?_cons_cons]; exact hy

theorem tries_one {c : Cfg} {p : Unpacker} {multi : Bool} {v : U} {x : Ran} (hx : v.ok = true ↔ Good x) (hv : v.ok = true → Calm v)
    (hp : x.unpacker = p) (ha : argsOf c p multi x.password = some x.args) : Tries c p multi [x] v := by
  refine ⟨?_, ?_, ?_⟩
  · intro y hy
    rw [List.mem_singleton] at hy
    subst hy
    exact ⟨hp, ha⟩
  · simp
  · exact fun ho => ⟨hv ho, x, rfl, hx.1 ho⟩

theorem tries_nil {c : Cfg} {p : Unpacker} {multi : Bool} {v : U} (h : v.ok = false) : Tries c p multi [] v :=
  ⟨by simp, by simp, fun q => by rw [h] at q; cases q⟩

theorem tryList_spec (c : Cfg) (rs : Nat → Run) (p : Unpacker) (multi : Bool) : ∀ (ls : List Bytes) (u : U), Whole u → u.ok = false →
    Whole (tryList c rs p multi ls u) ∧ ∃ new, (tryList c rs p multi ls u).runs = u.runs ++ new ∧ Tries c p multi new (tryList c rs p multi ls u) ∧
      ((∀ pw ∈ (ls.map trimLine).filter (· ≠ []), ¬ dataError <:+ tryText c pw) → new.map (·.password) <+: (ls.map trimLine).filter (· ≠ []))
  | [], u, hw, ho => ⟨hw, [], by simp [tryList], tries_nil ho, fun _ => by simp⟩
  | l :: ls, u, hw, ho => by
    unfold tryList
    by_cases hg : goesOn u = true
    · rw [if_pos hg]
      by_cases hl : trimLine l = []
      · rw [if_pos hl]
        have ih := tryList_spec c rs p multi ls u hw ho
        simpa [hl] using ih
      · rw [if_neg hl]
        obtain ⟨hw1, u', hu, hcalm, ha⟩ := tryOne_cases c rs p multi (trimLine l) u hw
        have hlist : ((l :: ls).map trimLine).filter (· ≠ []) = trimLine l :: (ls.map trimLine).filter (· ≠ []) := by simp [hl]
        rw [hlist]
        generalize tryOne c rs p multi (trimLine l) u = v1 at *
        have hend : goesOn v1 = false → tryList c rs p multi ls v1 = v1 := by
          intro q
          cases ls with
          | nil => rfl
          | cons a ls => simp [tryList, q]
        cases ha with
        | none h1 h2 h3 h4 =>
          rw [hend (by simp [goesOn, h4])]
          exact ⟨hw1, [], by simp [h2, hu], tries_nil h3, fun _ => by simp⟩
        | skipped h1 h2 h3 h4 =>
          obtain ⟨g1, new, g2, g3, g4⟩ := tryList_spec c rs p multi ls v1 hw1 h2
          refine ⟨g1, new, by rw [g2, h1, hu], g3, ?_⟩
          intro q
          have hc := h4 (hcalm (q _ (by simp)))
          have he := hend (by simp [goesOn, hc.1, hc.2])
          rw [he] at g2
          have hn : new = [] := by simpa using g2
          simp [hn]
        | ran x h1 h2 h3 h4 h5 h6 =>
          cases hv : v1.ok with
          | true =>
            rw [hend (by simp [goesOn, hv])]
            refine ⟨hw1, [x], by rw [h4, hu], tries_one h5 h6 h1 (by rw [h3]; exact h2), fun _ => ?_⟩
            simp [h3]
          | false =>
            obtain ⟨g1, new, g2, g3, g4⟩ := tryList_spec c rs p multi ls v1 hw1 hv
            refine ⟨g1, x :: new, by rw [g2, h4, hu]; simp, tries_cons g3 (fun q => ?_) h1 (by rw [h3]; exact h2), fun q => ?_⟩
            · rw [h5.2 q] at hv; cases hv
            · rw [List.map_cons, h3]
              exact (List.prefix_cons_inj _).2 (g4 (fun pw h => q pw (List.mem_cons_of_mem _ h)))
    · rw [if_neg hg]
      exact ⟨hw, [], by simp, tries_nil ho, fun _ => by simp⟩

theorem passwordList_spec (c : Cfg) (rs : Nat → Run) (p : Unpacker) (multi : Bool) (u : U) (hw : Whole u) (ho : u.ok = false) :
    Whole (passwordList c rs p multi u) ∧ ∃ new, (passwordList c rs p multi u).runs = u.runs ++ new ∧
      Tries c p multi new (passwordList c rs p multi u) ∧ (wantsList c u = false → new = []) ∧
      (Quiet c → new.map (·.password) <+: (if c.password = [] ∧ c.passOpt ≠ [] then match c.passFile with
        | some b => passwords b
        | none => [] else [])) := by
  unfold passwordList
  by_cases hl : wantsList c u = true
  · rw [if_pos hl]
    have hcond : c.password = [] ∧ c.passOpt ≠ [] := by
      simp only [wantsList, Bool.and_eq_true, decide_eq_true_iff] at hl
      exact ⟨hl.1.2, hl.2⟩
    rw [if_pos hcond]
    cases hf : c.passFile with
    | none =>
      dsimp only [say]
      have e := addMessage_eq ((lit "Could not open file " ++ c.passOpt).take 1023) u
      refine ⟨whole_message _ hw, [], by rw [e.2.2.2.2.2.2.2.2.1, List.append_nil], tries_nil (by rw [e.2.1]; exact ho), fun _ => rfl, fun _ => by simp⟩
    | some b =>
      dsimp only
      obtain ⟨g1, new, g2, g3, g4⟩ := tryList_spec c rs p multi (fileLines (b.length + 1) b) u hw ho
      refine ⟨g1, new, g2, ⟨g3.args, g3.failed, g3.ok⟩, (fun q => by rw [hl] at q; cases q), fun q => g4 (q b hf)⟩
  · rw [if_neg hl]
    exact ⟨hw, [], by simp, tries_nil ho, fun _ => rfl, fun _ => by simp⟩

/-- Unpacking of one kind of archives. -/
theorem archives_spec (c : Cfg) (rs : Nat → Run) (p : Unpacker) (multi : Bool) (u : U) (hw : Whole u) :
    Whole (unpackArchives c rs p multi u) ∧ ∃ new, (unpackArchives c rs p multi u).runs = u.runs ++ new ∧
      Tries c p multi new (unpackArchives c rs p multi u) ∧ (Quiet c → Calm u → new.map (·.password) <+: candidates c) := by
  unfold unpackArchives
  by_cases ht : (!c.tried) = true
  · rw [if_pos ht]
    have htf : c.tried = false := by simpa using ht
    dsimp only
    obtain ⟨hw1, ha⟩ := attempt c rs p multi c.password u hw
    have hcand : ∀ l : List Ran, l.map (·.password) <+: (if c.password = [] ∧ c.passOpt ≠ [] then match c.passFile with
        | some b => passwords b
        | none => [] else []) → c.password :: l.map (·.password) <+: candidates c := by
      intro l hl
      unfold candidates
      rw [htf]
      exact (List.prefix_cons_inj _).2 hl
    generalize executeUnpack c rs p multi c.password u = v at *
    have hpl : wantsList c v = false → passwordList c rs p multi v = v := fun q => by simp [passwordList, q]
    cases ha with
    | none h1 h2 h3 h4 =>
      have : wantsList c v = false := by simp [wantsList, goesOn, h4]
      rw [hpl this, ite_self]
      exact ⟨hw1, [], by simp [h2], tries_nil h3, fun _ _ => by simp⟩
    | skipped h1 h2 h3 h4 =>
      by_cases hp : parFirst c v = true
      · rw [if_pos hp]
        exact ⟨hw1, [], by simp [h1], tries_nil h2, fun _ _ => by simp⟩
      · rw [if_neg hp]
        obtain ⟨g1, new, g2, g3, g5, g4⟩ := passwordList_spec c rs p multi v hw1 h2
        refine ⟨g1, new, by rw [g2, h1], g3, fun _ qc => ?_⟩
        have hc := h4 qc
        rw [g5 (by simp [wantsList, goesOn, hc.1, hc.2])]
        simp
    | ran x h1 h2 h3 h4 h5 h6 =>
      have hx : argsOf c p multi x.password = some x.args := by rw [h3]; exact h2
      have one : [x].map (·.password) <+: candidates c := by
        rw [List.map_cons, h3]
        exact hcand [] (by simp)
      cases hv : v.ok with
      | true =>
        have : wantsList c v = false := by simp [wantsList, goesOn, hv]
        rw [hpl this, ite_self]
        exact ⟨hw1, [x], h4, tries_one h5 h6 h1 hx, fun _ _ => one⟩
      | false =>
        by_cases hp : parFirst c v = true
        · rw [if_pos hp]
          exact ⟨hw1, [x], h4, tries_one h5 h6 h1 hx, fun _ _ => one⟩
        · rw [if_neg hp]
          obtain ⟨g1, new, g2, g3, g5, g4⟩ := passwordList_spec c rs p multi v hw1 hv
          refine ⟨g1, x :: new, by rw [g2, h4]; simp, tries_cons g3 (fun q => ?_) h1 hx, fun q _ => ?_⟩
          · rw [h5.2 q] at hv; cases hv
          · rw [List.map_cons, h3]
            exact hcand new (g4 q)
  · rw [if_neg ht]
    have htt : c.tried = true := by simpa using ht
    obtain ⟨g1, new, g2, g3, g5, g4⟩ := passwordList_spec c rs p multi { u with ok := false, decryptErr := c.lastPassword } hw rfl
    refine ⟨g1, new, g2, g3, fun q _ => ?_⟩
    unfold candidates
    rw [htt]
    exact g4 q

/-! ### All archives -/

theorem unpacking_calm (name : Bytes) : Whole (say (lit "Unpacking " ++ name) init) ∧ Calm (say (lit "Unpacking " ++ name) init) ∧
    (say (lit "Unpacking " ++ name) init).ok = true ∧ (say (lit "Unpacking " ++ name) init).runs = [] ∧ (say (lit "Unpacking " ++ name) init).cur = .unrar := by
  have e : (lit "Unpacking " ++ name).take 1023 = 85 :: 110 :: 112 :: ((lit "acking " ++ name).take 1020) := by
    have : lit "Unpacking " = 85 :: 110 :: 112 :: lit "acking " := by decide +kernel
    simp [this]
  have w : saysWrong .unrar ((lit "Unpacking " ++ name).take 1023) = false := by
    rw [e]
    have a1 : (lit "Unrar: Checksum error in the encrypted file").take 42 = 85 :: 110 :: 114 :: ((lit "ar: Checksum error in the encrypted file").take 39) := by decide +kernel
    have a2 : lit "Unrar: CRC failed in the encrypted file" = 85 :: 110 :: 114 :: lit "ar: CRC failed in the encrypted file" := by decide +kernel
    have a3 : lit "Unrar: The specified password is incorrect." = 85 :: 110 :: 114 :: lit "ar: The specified password is incorrect." := by decide +kernel
    have a4 : lit "Unrar: Incorrect password for" = 85 :: 110 :: 114 :: lit "ar: Incorrect password for" := by decide +kernel
    simp only [saysWrong, saysDecrypt, saysPassword, startsWith, a1, a2, a3, a4, List.isPrefixOf]
    simp only [show ((114 : UInt8) == 112) = false from rfl, Bool.false_and, Bool.and_false, Bool.or_self]
  have g := addMessage_eq ((lit "Unpacking " ++ name).take 1023) init
  have f := (addMessage_flags ((lit "Unpacking " ++ name).take 1023) init).2
  refine ⟨whole_message _ (fun q => by cases q), ?_, g.2.1, g.2.2.2.2.2.2.2.2.1, g.1⟩
  rw [show init.cur = .unrar from rfl, w] at f
  have : init.decryptErr = false ∧ init.passErr = false := ⟨rfl, rfl⟩
  unfold Calm say
  grind

/-- The part of one kind of archives in the whole: `new` are its processes. -/
theorem stage_spec (c : Cfg) (rs : Nat → Run) (p : Unpacker) (multi b : Bool) (u : U) (hw : Whole u) (hc : u.ok = true → Calm u) :
    ∃ new, (stage b (unpackArchives c rs p multi) u).runs = u.runs ++ new ∧ Whole (stage b (unpackArchives c rs p multi) u) ∧
      ((stage b (unpackArchives c rs p multi) u).ok = true → Calm (stage b (unpackArchives c rs p multi) u)) ∧
      ((stage b (unpackArchives c rs p multi) u).ok = true → u.ok = true ∧ (b = true → ∃ x, new.getLast? = some x ∧ Good x)) ∧
      (∀ x ∈ new, x.unpacker = p ∧ argsOf c p multi x.password = some x.args) ∧ (∀ x ∈ new.dropLast, ¬ Good x) ∧
      (Quiet c → new.map (·.password) <+: candidates c) ∧ (b = false → new = []) := by
  unfold stage
  cases b with
  | false => exact ⟨[], by simp, hw, hc, fun h => ⟨h, fun q => by cases q⟩, by simp, by simp, fun _ => by simp, fun _ => rfl⟩
  | true =>
    cases ho : u.ok with
    | false =>
      simp only [Bool.and_false, Bool.false_eq_true, if_false]
      exact ⟨[], by simp, hw, hc, fun h => (by rw [ho] at h; cases h), by simp, by simp, fun _ => by simp, fun _ => rfl⟩
    | true =>
      simp only [Bool.and_self, if_true]
      obtain ⟨g1, new, g2, g3, g4⟩ := archives_spec c rs p multi u hw
      exact ⟨new, g2, g1, fun h => (g3.ok h).1, fun h => ⟨by trivial, fun _ => (g3.ok h).2⟩, g3.args, g3.failed, fun q => g4 q (hc ho), fun q => by cases q⟩

/-- All processes of the stage, by kind of archives: which are started, with what passwords and arguments, and when success is reported. -/
theorem runAll_spec (c : Cfg) (h : Has) (rs : Nat → Run) (joinOk : Bool) :
    ∃ r1 r2 r3, (runAll c h rs joinOk).runs = r1 ++ r2 ++ r3 ∧
      (∀ x ∈ r1, x.unpacker = .unrar ∧ argsOf c .unrar false x.password = some x.args) ∧
      (∀ x ∈ r2, x.unpacker = .sevenZip ∧ argsOf c .sevenZip false x.password = some x.args) ∧
      (∀ x ∈ r3, x.unpacker = .sevenZip ∧ argsOf c .sevenZip true x.password = some x.args) ∧
      (∀ x, x ∈ r1.dropLast ∨ x ∈ r2.dropLast ∨ x ∈ r3.dropLast → ¬ Good x) ∧
      (Quiet c → r1.map (·.password) <+: candidates c ∧ r2.map (·.password) <+: candidates c ∧ r3.map (·.password) <+: candidates c) ∧
      ((h.rar && !h.direct) = false → r1 = []) ∧ (h.sevenZip = false → r2 = []) ∧ (h.sevenZipMulti = false → r3 = []) ∧
      ((runAll c h rs joinOk).ok = true →
        (h.rar = true → h.direct = false → ∃ x, r1.getLast? = some x ∧ Good x) ∧ (h.sevenZip = true → ∃ x, r2.getLast? = some x ∧ Good x) ∧
        (h.sevenZipMulti = true → ∃ x, r3.getLast? = some x ∧ Good x) ∧ (h.splitted = true → joinOk = true)) := by
  unfold runAll
  dsimp only
  obtain ⟨w0, c0, o0, n0, -⟩ := unpacking_calm c.name
  generalize say (lit "Unpacking " ++ c.name) init = u0 at *
  obtain ⟨r1, a1, a2, a3, a4, a5, a6, a7, a8⟩ := stage_spec c rs .unrar false (h.rar && !h.direct) u0 w0 (fun _ => c0)
  generalize stage (h.rar && !h.direct) _ u0 = u1 at *
  obtain ⟨r2, b1, b2, b3, b4, b5, b6, b7, b8⟩ := stage_spec c rs .sevenZip false h.sevenZip u1 a2 a3
  generalize stage h.sevenZip _ u1 = u2 at *
  obtain ⟨r3, d1, d2, d3, d4, d5, d6, d7, d8⟩ := stage_spec c rs .sevenZip true h.sevenZipMulti u2 b2 b3
  generalize stage h.sevenZipMulti _ u2 = u3 at *
  have e1 : (stage h.splitted (fun u => { u with ok := joinOk }) u3).runs = u3.runs := by unfold stage; split <;> rfl
  have e2 : (stage h.splitted (fun u => { u with ok := joinOk }) u3).ok = true → u3.ok = true ∧ (h.splitted = true → joinOk = true) := by
    unfold stage
    cases h.splitted <;> cases hu : u3.ok <;> simp [hu]
  refine ⟨r1, r2, r3, by rw [e1, d1, b1, a1, n0]; simp, a5, b5, d5, ?_, fun q => ⟨a7 q, b7 q, d7 q⟩, a8, b8, d8, ?_⟩
  · rintro x (q | q | q)
    · exact a6 x q
    · exact b6 x q
    · exact d6 x q
  · intro ho
    have h3 := e2 ho
    have h2 := d4 h3.1
    have h1 := b4 h2.1
    have h0 := a4 h1.1
    exact ⟨fun q q' => h0.2 (by simp [q, q']), h1.2, h2.2, h3.2⟩

/-- Success is reported only if each kind of archives was unpacked completely by one process, which has returned 0, has said that all is well,
has not complained about anything and was not stopped. -/
theorem success_sound (c : Cfg) (h : Has) (rs : Nat → Run) (joinOk : Bool) (ho : (runAll c h rs joinOk).ok = true) :
    (h.rar = true → h.direct = false → ∃ x ∈ (runAll c h rs joinOk).runs, Good x ∧ argsOf c .unrar false x.password = some x.args) ∧
    (h.sevenZip = true → ∃ x ∈ (runAll c h rs joinOk).runs, Good x ∧ argsOf c .sevenZip false x.password = some x.args) ∧
    (h.sevenZipMulti = true → ∃ x ∈ (runAll c h rs joinOk).runs, Good x ∧ argsOf c .sevenZip true x.password = some x.args) ∧
    (h.splitted = true → joinOk = true) := by
  obtain ⟨r1, r2, r3, e, a1, a2, a3, -, -, -, -, -, hs⟩ := runAll_spec c h rs joinOk
  obtain ⟨s1, s2, s3, s4⟩ := hs ho
  rw [e]
  refine ⟨fun q q' => ?_, fun q => ?_, fun q => ?_, s4⟩
  · obtain ⟨x, hx, g⟩ := s1 q q'
    have hm := List.mem_of_getLast? hx
    exact ⟨x, by simp [hm], g, (a1 x hm).2⟩
  · obtain ⟨x, hx, g⟩ := s2 q
    have hm := List.mem_of_getLast? hx
    exact ⟨x, by simp [hm], g, (a2 x hm).2⟩
  · obtain ⟨x, hx, g⟩ := s3 q
    have hm := List.mem_of_getLast? hx
    exact ⟨x, by simp [hm], g, (a3 x hm).2⟩

end Verif.UnpackRun
