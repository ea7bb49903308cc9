import Verif.RarProps
/-
C91: what is read from volumes of version 5.
-/
namespace Verif.Rar
open CStr

theorem enc7_length_pos (k x : Nat) (h : 0 < k) : 0 < (enc7 k x).length := by
  obtain ⟨k, rfl⟩ : ∃ j, k = j + 1 := ⟨k - 1, by omega⟩
  rw [enc7]
  split <;> simp

theorem leN_one (x : Nat) : leN 1 x = [UInt8.ofNat x] := rfl

theorem reads_vintLoop : ∀ k i acc x t, x < 128 ^ k → Reads (vintLoop k i acc) (enc7 k x)
    (if k = 0 then 0 else (acc + x * 2 ^ (7 * i)) % 2 ^ 64) t (t - (enc7 k x).length) ∨ k = 0 := by
  intro k
  induction k with
  | zero => intro i acc x t _; exact .inr rfl
  | succ k ih =>
    intro i acc x t hx
    refine .inl ?_
    rw [if_neg (by omega), enc7]
    by_cases h : x < 128
    · rw [if_pos h]
      have r := reads_uint 1 x t (by omega)
      rw [leN_one x] at r
      refine reads_end r ?_
      rw [if_neg (by omega), Nat.mod_eq_of_lt h]
      exact reads_pure _ _
    · rw [if_neg h]
      have r := reads_uint 1 (x % 128 + 128) t (by omega)
      rw [leN_one _] at r
      refine reads_bind r ?_
      rw [if_pos (by omega)]
      have hx' : x / 128 < 128 ^ k := by
        rw [Nat.pow_succ] at hx
        omega
      cases ih (i + 1) ((acc + (x % 128 + 128) % 128 * 2 ^ (7 * i)) % 2 ^ 64) (x / 128) (t - (1 : Nat)) hx' with
      | inr h0 => subst h0; simp at hx'; omega
      | inl hr =>
        have hk : k ≠ 0 := by intro h0; subst h0; simp at hx'; omega
        rw [if_neg hk] at hr
        have e : ((acc + (x % 128 + 128) % 128 * 2 ^ (7 * i)) % 2 ^ 64 + x / 128 * 2 ^ (7 * (i + 1))) % 2 ^ 64 =
            (acc + x * 2 ^ (7 * i)) % 2 ^ 64 := by
          have e1 : x / 128 * 2 ^ (7 * (i + 1)) = x / 128 * 128 * 2 ^ (7 * i) := by
            rw [show 7 * (i + 1) = 7 + 7 * i by omega, Nat.pow_add, Nat.mul_assoc]
          rw [e1, Nat.mod_add_mod, Nat.add_assoc, ← Nat.add_mul]
          congr 3
          omega
        rw [e] at hr
        exact reads_trail hr (by rw [List.length_cons]; omega)

theorem reads_vint (x : Nat) (t : Int) (h : x < 2 ^ 64) : Reads vint (encV x) x t (t - (encV x).length) := by
  cases reads_vintLoop 10 0 0 x t (by omega) with
  | inr h => omega
  | inl hr =>
    rw [if_neg (by omega), show (0 + x * 2 ^ (7 * 0)) % 2 ^ 64 = x by omega] at hr
    exact hr

/-- A number which is stored only under a condition. -/
def optV (c : Bool) (x : Nat) : Bytes := if c then encV x else []

theorem reads_optV (c : Bool) (x d : Nat) (t : Int) (h : x < 2 ^ 64) :
    Reads (opt c vint d) (optV c x) (if c then x else d) t (t - (optV c x).length) := by
  cases c
  · exact reads_trail (reads_pure d t) (by simp [optV])
  · exact reads_vint x t h

/-- The fields with which every header begins, after its size. -/
def fields5 (type flags extra data : Nat) : Bytes :=
  encV type ++ (encV flags ++ (optV (flags.testBit 0) extra ++ optV (flags.testBit 1) data))

/-- A block: its checksum, its size, its header and its data. -/
def block5enc (crc : Nat) (type flags : Nat) (body extra data : Bytes) : Bytes :=
  (leN 4 crc ++ (encV (fields5 type flags extra.length data.length ++ (body ++ extra)).length ++
    fields5 type flags extra.length data.length)) ++ (body ++ (extra ++ (if flags.testBit 1 then data else [])))

theorem reads_block5 (crc size type flags extra data : Nat) (t : Int) (h1 : crc < 2 ^ 32) (h2 : size < 2 ^ 32) (h3 : type < 256)
    (h4 : flags < 65536) (h5 : extra < 2 ^ 64) (h6 : data < 2 ^ 64) :
    Reads block5 (leN 4 crc ++ (encV size ++ fields5 type flags extra data))
      ⟨type, flags, if flags.testBit 0 then extra else 0⟩ t
      ((size : Int) - (fields5 type flags extra data).length + (if flags.testBit 1 then data else 0 : Nat)) := by
  refine reads_bind (reads_uint 4 _ _ h1) (reads_bind (reads_vint _ _ (by omega)) (reads_none (reads_setTrail _ _)
    (reads_bind (reads_vint _ _ (by omega)) (reads_bind (reads_vint _ _ (by omega)) ?_))))
  rw [Nat.mod_eq_of_lt h4, Nat.mod_eq_of_lt h3, Nat.mod_eq_of_lt h2]
  refine reads_bind (reads_optV _ _ _ _ h5) (reads_end (reads_optV _ _ _ _ h6) (reads_none (reads_getTrail _) ?_))
  refine reads_last (g := fun _ => (⟨type, flags, if flags.testBit 0 then extra else 0⟩ : Block)) (reads_trail (reads_setTrail _ _) ?_)
  unfold fields5
  simp only [List.length_append]
  omega

/-- A record in the header of a file. -/
inductive Extra where
  /-- the time, in seconds since 1970 -/
  | unix (flags time : Nat) (rest : Bytes)
  /-- the time, in 100 nanoseconds since 1601 -/
  | windows (flags time : Nat) (rest : Bytes)
  | other (type : Nat) (body : Bytes)
deriving DecidableEq, Repr

def Extra.type : Extra → Nat
  | .unix _ _ _ => 3
  | .windows _ _ _ => 3
  | .other type _ => type

def Extra.times : Extra → Bytes
  | .unix flags time _ => encV flags ++ leN 4 time
  | .windows flags time _ => encV flags ++ (leN 4 (time % 2 ^ 32) ++ leN 4 (time / 2 ^ 32))
  | .other _ _ => []

def Extra.rest : Extra → Bytes
  | .unix _ _ rest => rest
  | .windows _ _ rest => rest
  | .other _ body => body

def Extra.body (x : Extra) : Bytes := encV x.type ++ (x.times ++ x.rest)

def Extra.enc (x : Extra) : Bytes := encV x.body.length ++ x.body

def Extra.Ok : Extra → Prop
  | .unix flags time rest => flags < 2 ^ 64 ∧ flags.testBit 0 = true ∧ time < 2 ^ 32 ∧ rest.length < 2 ^ 32
  | .windows flags time rest => flags < 2 ^ 64 ∧ flags.testBit 0 = false ∧ time < 2 ^ 64 ∧ rest.length < 2 ^ 32
  | .other type body => type < 2 ^ 64 ∧ type ≠ 3 ∧ body.length < 2 ^ 32

/-- The time which a record gives: between 1970 and 2106 a time of Windows is converted. -/
def Extra.time (old : Nat) : Extra → Nat
  | .unix _ time _ => time
  | .windows _ time _ => (((time / 10000000 : Nat) - 11644473600 : Int) % 2 ^ 32).toNat
  | .other _ _ => old

theorem reads_skip' (s : Bytes) (t : Int) (z : Int) (hz : z = s.length) (h : s.length < 2 ^ 63) :
    Reads (skip z) s () t (t - s.length) := by
  subst hz
  exact reads_skip s t _ rfl h

theorem reads_times (x : Extra) (h : x.Ok) (old : Nat) (t : Int) :
    Reads (opt (x.type == 3) time5 old) x.times (x.time old) t (t - x.times.length) := by
  cases x with
  | unix flags time rest =>
    obtain ⟨h1, h2, h3, _⟩ := h
    refine reads_bind (reads_vint _ _ h1) ?_
    rw [if_pos h2]
    exact reads_trail (reads_uint 4 _ _ (by omega)) (by simp [Extra.times, leN_length]; omega)
  | windows flags time rest =>
    obtain ⟨h1, h2, h3, _⟩ := h
    refine reads_bind (reads_vint _ _ h1) ?_
    rw [if_neg (by rw [h2]; exact Bool.false_ne_true)]
    refine reads_bind (reads_uint 4 _ _ (by omega)) ?_
    have r := reads_last (g := fun high => ((((high * 2 ^ 32 + time % 2 ^ 32) / 10000000 : Nat) - 11644473600 : Int) % 2 ^ 32).toNat)
      (reads_uint 4 (time / 2 ^ 32) (t - (encV flags).length - (4 : Nat)) (by omega))
    have e : time / 2 ^ 32 * 2 ^ 32 + time % 2 ^ 32 = time := by omega
    have e2 : ((((time / 2 ^ 32 * 2 ^ 32 + time % 2 ^ 32) / 10000000 : Nat) - 11644473600 : Int) % 2 ^ 32).toNat =
        (Extra.windows flags time rest).time old := by rw [e]; rfl
    rw [← e2]
    exact reads_trail r (by simp [Extra.times, leN_length]; omega)
  | other type body =>
    obtain ⟨h1, h2, _⟩ := h
    have : (type == 3) = false := by simpa using h2
    show Reads (opt (type == 3) time5 old) _ _ _ _
    rw [this]
    exact reads_trail (reads_pure old t) (by simp [Extra.times])

theorem extra_type (x : Extra) (h : x.Ok) : x.type < 2 ^ 64 := by
  cases x with
  | unix _ _ _ => show (3 : Nat) < _; omega
  | windows _ _ _ => show (3 : Nat) < _; omega
  | other type _ => exact h.1

theorem reads_extra5 : ∀ (l : List Extra) (k time : Nat) (t : Int), l.length < k → (∀ x ∈ l, x.Ok) →
    (l.flatMap Extra.enc).length < 2 ^ 62 →
    Reads (extra5 k (l.flatMap Extra.enc).length time) (l.flatMap Extra.enc) (l.foldl Extra.time time) t
      (t - (l.flatMap Extra.enc).length) := by
  intro l
  induction l with
  | nil =>
    intro k time t hk _ _
    obtain ⟨k, rfl⟩ : ∃ j, k = j + 1 := ⟨k - 1, by simp at hk; omega⟩
    rw [extra5, if_pos (by rfl)]
    exact reads_trail (reads_pure time t) (by simp)
  | cons x l ih =>
    intro k time t hk hok hlen
    obtain ⟨k, rfl⟩ : ∃ j, k = j + 1 := ⟨k - 1, by simp at hk; omega⟩
    have hx := hok x List.mem_cons_self
    have hb : x.body.length = (encV x.type).length + (x.times.length + x.rest.length) := by simp [Extra.body]
    have hl : (List.flatMap Extra.enc (x :: l)).length = (encV x.body.length).length + x.body.length + (l.flatMap Extra.enc).length := by
      simp only [List.flatMap_cons, Extra.enc, List.length_append]
    have hp : 0 < (encV x.body.length).length := enc7_length_pos _ _ (by omega)
    rw [hl] at hlen
    have e : List.flatMap Extra.enc (x :: l) = encV x.body.length ++ (encV x.type ++ (x.times ++ (x.rest ++ l.flatMap Extra.enc))) := by
      simp only [List.flatMap_cons, Extra.enc, Extra.body, List.append_assoc]
    rw [extra5, if_neg (by omega), hl, e]
    refine reads_none (reads_getTrail _) (reads_bind (reads_vint _ _ (by omega)) (reads_none (reads_getTrail _)
      (reads_bind (reads_vint _ _ (extra_type x hx)) (reads_bind (reads_times x hx time _) (reads_none (reads_getTrail _)
      (reads_bind (reads_skip' x.rest _ _ ?_ (by omega)) ?_))))))
    · omega
    · have hrem : ((((encV x.body.length).length + x.body.length + (l.flatMap Extra.enc).length : Nat) : Int) -
          (t - (t - (encV x.body.length).length) + x.body.length)) % 2 ^ 64 = ((l.flatMap Extra.enc).length : Nat) := by
        omega
      have := ih k (x.time time) (t - (encV x.body.length).length - (encV x.type).length - x.times.length - x.rest.length)
        (by simp at hk; omega) (fun y hy => hok y (List.mem_cons_of_mem _ hy)) (by omega)
      rw [hrem, Int.toNat_natCast]
      exact reads_trail this (by omega)

/-- A file in an archive of version 5. -/
structure Entry5 where
  name : Bytes
  size : Nat
  attr : Nat
  time : Nat
  /-- which of the optional fields are there: bit 1 the time, bit 2 the checksum -/
  fileFlags : Nat
  /-- bit 0: records, bit 1: data, bit 3: continued from the previous volume, bit 4: continued in the next volume -/
  flags : Nat
  data : Bytes
  extras : List Extra := []
  crc : Nat := 0
  fileCrc : Bytes := [0, 0, 0, 0]
  method : Nat := 0
  host : Nat := 0
deriving DecidableEq, Repr

def Entry5.records (e : Entry5) : Bytes := if e.flags.testBit 0 then e.extras.flatMap Extra.enc else []

def Entry5.body (e : Entry5) : Bytes :=
  encV e.fileFlags ++ (encV e.size ++ (encV e.attr ++ ((if e.fileFlags.testBit 1 then leN 4 e.time else []) ++
    ((if e.fileFlags.testBit 2 then e.fileCrc else []) ++ (encV e.method ++ (encV e.host ++
    (encV e.name.length ++ e.name)))))))

def Entry5.enc (e : Entry5) : Bytes := block5enc e.crc 2 e.flags e.body e.records e.data

structure Entry5.Ok (e : Entry5) : Prop where
  nozero : (0 : UInt8) ∉ e.name
  name : e.name.length ≤ 8192
  size : e.size < 2 ^ 64
  attr : e.attr < 2 ^ 32
  time : e.time < 2 ^ 32
  fileFlags : e.fileFlags < 2 ^ 64
  flags : e.flags < 65536
  crc : e.crc < 2 ^ 32
  fileCrc : e.fileCrc.length = 4
  method : e.method < 2 ^ 64
  host : e.host < 2 ^ 64
  data : e.data.length < 2 ^ 62
  extras : ∀ x ∈ e.extras, x.Ok
  head : (fields5 2 e.flags e.records.length e.data.length ++ (e.body ++ e.records)).length < 2 ^ 32

/-- The time of a file: of the last record with a time, or of the header. -/
def Entry5.when (e : Entry5) : Nat :=
  if e.flags.testBit 0 then e.extras.foldl Extra.time (if e.fileFlags.testBit 1 then e.time else 0)
  else if e.fileFlags.testBit 1 then e.time else 0

def Entry5.file (e : Entry5) : RFile := ⟨e.name, e.when, e.attr, e.size, e.flags.testBit 3, e.flags.testBit 4⟩

theorem extras_length (l : List Extra) : l.length ≤ (l.flatMap Extra.enc).length := by
  induction l with
  | nil => exact Nat.le_refl _
  | cons x l ih =>
    rw [List.flatMap_cons, List.length_append, Extra.enc, List.length_append, List.length_cons]
    have : 0 < (encV x.body.length).length := enc7_length_pos _ _ (by omega)
    omega

theorem cstr_self (s : Bytes) (h : (0 : UInt8) ∉ s) : cstr s = s := by
  have := List.takeWhile_append_of_pos (p := fun x : UInt8 => x != 0) (l₁ := s) (l₂ := []) (by
    intro a ha
    have : a ≠ 0 := fun h0 => h (h0 ▸ ha)
    simpa using this)
  simpa [cstr] using this

theorem reads_extras (e : Entry5) (h : e.Ok) (time : Nat) (t : Int) (g : Nat → RFile) :
    Reads (getFile >>= fun total => opt (e.flags.testBit 0) (extra5 (total + 1) (if e.flags.testBit 0 then e.records.length else 0) time) time >>=
      fun x => (pure (g x) : Rd RFile)) e.records
      (g (if e.flags.testBit 0 then e.extras.foldl Extra.time time else time)) t (t - e.records.length) := by
  intro f pre post hf hl
  show (opt (e.flags.testBit 0) (extra5 (f.length + 1) (if e.flags.testBit 0 then e.records.length else 0) time) time >>=
      fun x => (pure (g x) : Rd RFile)) f pre.length t = _
  refine reads_last (g := g) ?_ f pre post hf hl
  have hh := h.head
  simp only [List.length_append] at hh
  have hr : e.records.length ≤ f.length := by
    rw [hf]
    simp only [List.length_append]
    omega
  unfold Entry5.records at *
  cases hb : e.flags.testBit 0
  · rw [if_neg Bool.false_ne_true, if_neg Bool.false_ne_true]
    exact reads_trail (reads_pure time t) (by simp)
  · rw [hb] at hr hh
    rw [if_pos rfl] at hr hh
    rw [if_pos rfl, if_pos rfl, if_pos rfl]
    have := extras_length e.extras
    exact reads_extra5 e.extras _ time t (by omega) h.extras (by omega)

theorem reads_optTime (c : Bool) (x : Nat) (t : Int) (h : x < 2 ^ 32) :
    Reads (opt c (uint 4) 0) (if c then leN 4 x else []) (if c then x else 0) t (t - (if c then leN 4 x else []).length) := by
  cases c
  · exact reads_trail (reads_pure 0 t) (by simp)
  · rw [if_pos rfl, if_pos rfl, leN_length]
    exact reads_uint 4 _ _ h

theorem reads_file5 (e : Entry5) (h : e.Ok) (t : Int) :
    Reads (file5 ⟨2, e.flags, if e.flags.testBit 0 then e.records.length else 0⟩) (e.body ++ e.records) e.file t
      (t - e.body.length - e.records.length) := by
  have hn := h.name
  have hat := h.attr
  have hbl : e.body.length = (encV e.fileFlags).length + ((encV e.size).length + ((encV e.attr).length +
      ((if e.fileFlags.testBit 1 then leN 4 e.time else []).length + ((if e.fileFlags.testBit 2 then e.fileCrc else []).length +
      ((encV e.method).length + ((encV e.host).length + ((encV e.name.length).length + e.name.length))))))) := by
    simp only [Entry5.body, List.length_append]
  rw [hbl]
  unfold Entry5.body
  simp only [List.append_assoc]
  refine reads_bind (reads_vint _ _ h.fileFlags) (reads_bind (reads_vint _ _ h.size) (reads_bind (reads_vint _ _ (by omega))
    (reads_bind (reads_optTime _ _ _ h.time) (reads_bind (reads_skipIf _ _ _ 4 h.fileCrc (by omega)) (reads_bind (reads_vint _ _ h.method)
    (reads_bind (reads_vint _ _ h.host) (reads_bind (reads_vint _ _ (by omega)) ?_)))))))
  · rw [if_neg (by omega), Nat.mod_eq_of_lt hat]
    refine reads_bind (reads_bytes e.name _ _ rfl) ?_
    have r := reads_extras e h (if e.fileFlags.testBit 1 then e.time else 0)
      (t - (encV e.fileFlags).length - (encV e.size).length - (encV e.attr).length - ((if e.fileFlags.testBit 1 then leN 4 e.time else []).length : Int)
        - ((if e.fileFlags.testBit 2 then 4 else 0 : Nat) : Int) - (encV e.method).length - (encV e.host).length
        - (encV e.name.length).length - e.name.length) (fun time => ⟨cstr e.name, time, e.attr, e.size, e.flags.testBit 3, e.flags.testBit 4⟩)
    have ef : e.file = (fun time => (⟨cstr e.name, time, e.attr, e.size, e.flags.testBit 3, e.flags.testBit 4⟩ : RFile))
        (if e.flags.testBit 0 then e.extras.foldl Extra.time (if e.fileFlags.testBit 1 then e.time else 0)
          else if e.fileFlags.testBit 1 then e.time else 0) := by
      dsimp only
      rw [cstr_self _ h.nozero]
      rfl
    rw [ef]
    refine reads_trail r ?_
    have : ((if e.fileFlags.testBit 2 = true then e.fileCrc else []).length : Int) = ((if e.fileFlags.testBit 2 then 4 else 0 : Nat) : Int) := by
      cases e.fileFlags.testBit 2
      · rfl
      · rw [if_pos rfl, if_pos rfl, h.fileCrc]
    omega

theorem reads_entry5 (e : Entry5) (h : e.Ok) (v : Vol) :
    ∃ t, Reads (step5 v) e.enc (false, { v with files := v.files ++ [e.file] }) 0 t := by
  have hd := h.data
  have hh := h.head
  have hh' := hh
  simp only [List.length_append] at hh'
  refine ⟨((if e.flags.testBit 1 then e.data else []).length : Int), reads_bind (reads_block5 _ _ 2 _ _ _ _ h.crc hh (by omega) h.flags (by omega) (by omega)) ?_⟩
  rw [if_neg (show ¬ (2 : Nat) = 0 by decide), if_neg (show ¬ (2 : Nat) = 1 by decide),
    if_neg (show ¬ (2 : Nat) = 4 by decide), if_pos rfl, ← List.append_assoc]
  refine reads_bind (reads_trail (reads_file5 e h _) (t2 := ((if e.flags.testBit 1 then e.data else []).length : Int)) ?_) (seek_then _ _)
  simp only [List.length_append]
  cases e.flags.testBit 1
  · simp only [Bool.false_eq_true, if_false, List.length_nil]
    omega
  · simp only [if_true]
    omega

/-- A block which is not for files. -/
structure Other5 where
  flags : Nat
  crc : Nat
  body : Bytes
  extra : Bytes
  data : Bytes
deriving DecidableEq, Repr

def Other5.enc (o : Other5) : Bytes := block5enc o.crc 3 o.flags o.body o.extra o.data

structure Other5.Ok (o : Other5) : Prop where
  flags : o.flags < 65536
  crc : o.crc < 2 ^ 32
  data : o.data.length < 2 ^ 62
  head : (fields5 3 o.flags o.extra.length o.data.length ++ (o.body ++ o.extra)).length < 2 ^ 32

theorem reads_other5 (o : Other5) (h : o.Ok) (v : Vol) : ∃ t, Reads (step5 v) o.enc (false, v) 0 t := by
  have hd := h.data
  have hh := h.head
  have hh' := hh
  simp only [List.length_append] at hh'
  refine ⟨((o.body ++ (o.extra ++ (if o.flags.testBit 1 then o.data else []))).length : Int),
    reads_bind (reads_trail (reads_block5 _ _ 3 _ _ _ _ h.crc hh (by omega) h.flags (by omega) (by omega))
    (t2 := ((o.body ++ (o.extra ++ (if o.flags.testBit 1 then o.data else []))).length : Int)) ?_) ?_⟩
  · simp only [List.length_append]
    cases o.flags.testBit 1
    · simp only [Bool.false_eq_true, if_false, List.length_nil]
      omega
    · simp only [if_true]
      omega
  · rw [if_neg (show ¬ (3 : Nat) = 0 by decide), if_neg (show ¬ (3 : Nat) = 1 by decide),
      if_neg (show ¬ (3 : Nat) = 4 by decide), if_neg (show ¬ (3 : Nat) = 2 by decide),
      if_neg (show ¬ (3 : Nat) = 5 by decide), if_neg (show ¬ (3 : Nat) > 5 by decide)]
    exact seek_then _ _

inductive Item5 where
  | file (e : Entry5)
  | other (o : Other5)
deriving DecidableEq, Repr

def Item5.enc : Item5 → Bytes
  | .file e => e.enc
  | .other o => o.enc

def Item5.Ok : Item5 → Prop
  | .file e => e.Ok
  | .other o => o.Ok

def Item5.files : Item5 → List RFile
  | .file e => [e.file]
  | .other _ => []

/-- A volume of version 5. -/
structure Archive5 where
  /-- bit 0: one of several volumes, bit 1: the number is stored -/
  arcFlags : Nat
  number : Nat
  items : List Item5
  /-- bit 0: there is a next volume -/
  endFlags : Nat
  mainBlock : Nat := 0
  mainCrc : Nat := 0
  mainRest : Bytes := []
  mainExtra : Bytes := []
  mainData : Bytes := []
  endBlock : Nat := 0
  endCrc : Nat := 0
  endRest : Bytes := []
deriving DecidableEq, Repr

def sig5 : Bytes := [82, 97, 114, 33, 26, 7, 1, 0]

def Archive5.mainBody (a : Archive5) : Bytes :=
  (encV a.arcFlags ++ optV (a.arcFlags.testBit 1) a.number) ++ a.mainRest

def Archive5.main (a : Archive5) : Bytes := block5enc a.mainCrc 1 a.mainBlock a.mainBody a.mainExtra a.mainData

def Archive5.end5 (a : Archive5) : Bytes := block5enc a.endCrc 5 a.endBlock (encV a.endFlags) a.endRest []

def Archive5.enc (a : Archive5) : Bytes := sig5 ++ (a.main ++ (a.items.flatMap Item5.enc ++ a.end5))

structure Archive5.Ok (a : Archive5) : Prop where
  arcFlags : a.arcFlags < 2 ^ 64
  number : a.number < 2 ^ 32
  items : ∀ i ∈ a.items, i.Ok
  endFlags : a.endFlags < 2 ^ 64
  mainBlock : a.mainBlock < 65536
  mainCrc : a.mainCrc < 2 ^ 32
  mainData : a.mainData.length < 2 ^ 62
  mainHead : (fields5 1 a.mainBlock a.mainExtra.length a.mainData.length ++ (a.mainBody ++ a.mainExtra)).length < 2 ^ 32
  endBlock : a.endBlock < 65536
  endCrc : a.endCrc < 2 ^ 32
  endHead : (fields5 5 a.endBlock a.endRest.length 0 ++ (encV a.endFlags ++ a.endRest)).length < 2 ^ 32

def Archive5.vol (a : Archive5) : Vol where
  volumeNo := if a.arcFlags.testBit 1 then a.number else 0
  newNaming := true
  multi := a.arcFlags.testBit 0
  hasNext := a.endFlags.testBit 0
  files := a.items.flatMap Item5.files

theorem reads_main5 (a : Archive5) (h : a.Ok) : ∃ t, Reads (step5 {}) a.main
    (false, { volumeNo := a.vol.volumeNo, newNaming := true, multi := a.vol.multi }) 0 t := by
  have hd := h.mainData
  have hh := h.mainHead
  have hn := h.number
  have hh' := hh
  unfold Archive5.mainBody at hh'
  simp only [List.length_append] at hh'
  have e : a.main = (leN 4 a.mainCrc ++ (encV (fields5 1 a.mainBlock a.mainExtra.length a.mainData.length ++ (a.mainBody ++ a.mainExtra)).length ++
      fields5 1 a.mainBlock a.mainExtra.length a.mainData.length)) ++ (encV a.arcFlags ++ (optV (a.arcFlags.testBit 1) a.number ++
      (a.mainRest ++ (a.mainExtra ++ (if a.mainBlock.testBit 1 then a.mainData else []))))) := by
    unfold Archive5.main block5enc Archive5.mainBody
    simp only [List.append_assoc]
  rw [e]
  refine ⟨((a.mainRest ++ (a.mainExtra ++ (if a.mainBlock.testBit 1 then a.mainData else []))).length : Int),
    reads_bind (reads_block5 _ _ 1 _ _ _ _ h.mainCrc hh (by omega) h.mainBlock (by omega) (by omega)) ?_⟩
  rw [if_neg (show ¬ (1 : Nat) = 0 by decide), if_pos rfl]
  refine reads_bind (reads_vint _ _ h.arcFlags) (reads_bind (reads_trail (reads_optV _ _ _ _ (by omega))
    (t2 := ((a.mainRest ++ (a.mainExtra ++ (if a.mainBlock.testBit 1 then a.mainData else []))).length : Int)) ?_) ?_)
  · unfold Archive5.mainBody
    simp only [List.length_append]
    cases a.mainBlock.testBit 1
    · simp only [Bool.false_eq_true, if_false, List.length_nil]
      omega
    · simp only [if_true]
      omega
  · have e : (if a.arcFlags.testBit 1 = true then a.number else 0) % 2 ^ 32 = a.vol.volumeNo := by
      unfold Archive5.vol
      cases a.arcFlags.testBit 1
      · rfl
      · simp only [if_true]; omega
    rw [e]
    exact seek_then _ _

theorem reads_end5 (a : Archive5) (h : a.Ok) (v : Vol) (f pre post : Bytes)
    (hf : f = pre ++ (a.end5 ++ post)) (hl : f.length < 2 ^ 62) :
    ∃ p t, step5 v f pre.length 0 = .ok ((true, { v with hasNext := a.vol.hasNext }), p, t) := by
  have hh := h.endHead
  have hh' := hh
  simp only [List.length_append] at hh'
  have r := reads_bind (k := fun b => if b.type = 0 then fail
    else if b.type = 1 then do
      let arcflags ← vint
      let volnr ← opt (arcflags.testBit 1) vint v.volumeNo
      seek
      return (false, { v with volumeNo := volnr % 2 ^ 32, newNaming := true, multi := arcflags.testBit 0 })
    else if b.type = 4 then do
      let x ← vint
      if x ≠ 0 then fail
      else do
        let _ ← vint
        let _ ← bytes 17
        fail
    else if b.type = 2 then do
      let x ← file5 b
      seek
      return (false, { v with files := v.files ++ [x] })
    else if b.type = 5 then do
      let e ← vint
      return (true, { v with hasNext := e.testBit 0 })
    else if b.type > 5 then fail
    else do
      seek
      return (false, v)) (reads_block5 a.endCrc _ 5 a.endBlock a.endRest.length 0 0 h.endCrc hh (by omega) h.endBlock (by omega) (by omega))
      (e2 := encV a.endFlags) (b := (true, { v with hasNext := a.vol.hasNext })) (t2 := _) (by
        exact reads_last (g := fun e => (true, { v with hasNext := e.testBit 0 })) (reads_vint a.endFlags _ h.endFlags))
  exact ⟨_, _, r f pre ((a.endRest ++ (if a.endBlock.testBit 1 then [] else [])) ++ post) (by
    rw [hf]
    unfold Archive5.end5 block5enc
    simp only [List.append_assoc, List.length_nil]) hl⟩

theorem loop_items5 (f : Bytes) (hl : f.length < 2 ^ 62) : ∀ (l : List Item5) (v : Vol) (pre post : Bytes) (n : Nat),
    (∀ i ∈ l, i.Ok) → f = pre ++ (l.flatMap Item5.enc ++ post) →
    loop step5 f (l.length + n) v pre.length =
      loop step5 f n { v with files := v.files ++ l.flatMap Item5.files } (pre ++ l.flatMap Item5.enc).length := by
  intro l
  induction l with
  | nil => intro v pre post n _ _; simp
  | cons i l ih =>
    intro v pre post n hk hf
    rw [List.flatMap_cons, List.append_assoc] at hf
    have hi := hk i List.mem_cons_self
    have hstep : ∃ t, Reads (step5 v) i.enc (false, { v with files := v.files ++ i.files }) 0 t := by
      cases i with
      | file e => exact reads_entry5 e hi v
      | other o =>
        have e : ({ v with files := v.files ++ (Item5.other o).files } : Vol) = v := by
          show ({ v with files := v.files ++ [] } : Vol) = v
          rw [List.append_nil]
        rw [e]
        exact reads_other5 o hi v
    obtain ⟨t, ht⟩ := hstep
    rw [List.length_cons, show l.length + 1 + n = (l.length + n) + 1 by omega, loop_step ht f pre _ hf hl]
    rw [← List.length_append, ih _ (pre ++ i.enc) post n (fun j hj => hk j (List.mem_cons_of_mem _ hj)) (by
      rw [hf]; simp [List.append_assoc])]
    simp [List.append_assoc]

theorem version_sig5 (s : Bytes) : version (sig5 ++ s) = 5 := by
  unfold version sig5
  rw [if_neg (by simp), if_pos (by simp)]

/-- C91, first part, for version 5: a volume is read as it was written. -/
theorem volume5_read_as_written (a : Archive5) (h : a.Ok) (post : Bytes) (hl : (a.enc ++ post).length < 2 ^ 62) :
    read (a.enc ++ post) (a.items.length + 2) = some (.ok a.vol) := by
  have e : a.enc ++ post = sig5 ++ (a.main ++ (a.items.flatMap Item5.enc ++ (a.end5 ++ post))) := by
    simp only [Archive5.enc, List.append_assoc]
  have hver : version (a.enc ++ post) = 5 := by rw [e]; exact version_sig5 _
  rw [read, if_neg (by rw [hver]; decide), if_pos hver]
  obtain ⟨t, rm⟩ := reads_main5 a h
  have e1 := loop_step rm (a.enc ++ post) sig5 _ e hl (a.items.length + 1)
  have e2 := loop_items5 (a.enc ++ post) hl a.items { volumeNo := a.vol.volumeNo, newNaming := true, multi := a.vol.multi }
    (sig5 ++ a.main) (a.end5 ++ post) 1 h.items (by rw [e]; simp only [List.append_assoc])
  obtain ⟨p, t', re⟩ := reads_end5 a h { volumeNo := a.vol.volumeNo, newNaming := true, multi := a.vol.multi, files := a.items.flatMap Item5.files }
    (a.enc ++ post) ((sig5 ++ a.main) ++ a.items.flatMap Item5.enc) post (by rw [e]; simp only [List.append_assoc]) hl
  have e8 : sig5.length = 8 := rfl
  rw [List.length_append, e8] at e2
  rw [e8] at e1
  rw [e1, e2, List.nil_append, loop, re]
  rfl

end Verif.Rar
