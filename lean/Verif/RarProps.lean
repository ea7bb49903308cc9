import Verif.RarSafe
/-
C91: what is read from the headers of a rar-file, and when the reading ends.
-/
namespace Verif.Rar
open CStr

/- Specification: how archives are written -/

/-- A number in `n` bytes, the lowest first. -/
def leN : Nat → Nat → Bytes
  | 0, _ => []
  | n + 1, x => UInt8.ofNat x :: leN n (x / 256)

/-- A number in groups of seven bits, the lowest first; the highest bit tells that there are more. -/
def enc7 : (fuel : Nat) → Nat → Bytes
  | 0, _ => []
  | k + 1, x => if x < 128 then [UInt8.ofNat x] else UInt8.ofNat (x % 128 + 128) :: enc7 k (x / 128)

def encV (x : Nat) : Bytes := enc7 10 x

/-- The reader `m` reads `enc` as `a`, whatever is before it and after it. -/
def Reads {α : Type} (m : Rd α) (enc : Bytes) (a : α) (t t' : Int) : Prop :=
  ∀ f pre post, f = pre ++ (enc ++ post) → f.length < 2 ^ 62 →
    m f pre.length t = .ok (a, pre.length + enc.length, t')

theorem reads_bind {α β : Type} {m : Rd α} {k : α → Rd β} {e1 e2 : Bytes} {a : α} {b : β} {t t1 t2 : Int}
    (h1 : Reads m e1 a t t1) (h2 : Reads (k a) e2 b t1 t2) : Reads (m >>= k) (e1 ++ e2) b t t2 := by
  intro f pre post hf hl
  have c1 := h1 f pre (e2 ++ post) (by rw [hf, List.append_assoc]) hl
  have c2 := h2 f (pre ++ e1) post (by rw [hf, List.append_assoc, List.append_assoc]) hl
  show Rd.bind m k f pre.length t = _
  rw [List.length_append] at c2
  rw [Rd.bind, c1, List.length_append, ← Nat.add_assoc]
  exact c2

theorem reads_pure {α : Type} (a : α) (t : Int) : Reads (pure a : Rd α) [] a t t := fun _ _ _ _ _ => rfl

theorem reads_last {α β : Type} {m : Rd α} {g : α → β} {e : Bytes} {a : α} {t t1 : Int} (h : Reads m e a t t1) :
    Reads (m >>= fun x => (pure (g x) : Rd β)) e (g a) t t1 := by
  have := reads_bind (k := fun x => (pure (g x) : Rd β)) h (reads_pure (g a) t1)
  rwa [List.append_nil] at this

theorem reads_none {α β : Type} {m : Rd α} {k : α → Rd β} {e : Bytes} {a : α} {b : β} {t t1 t2 : Int}
    (h1 : Reads m [] a t t1) (h2 : Reads (k a) e b t1 t2) : Reads (m >>= k) e b t t2 := reads_bind h1 h2

theorem reads_end {α β : Type} {m : Rd α} {k : α → Rd β} {e : Bytes} {a : α} {b : β} {t t1 t2 : Int}
    (h1 : Reads m e a t t1) (h2 : Reads (k a) [] b t1 t2) : Reads (m >>= k) e b t t2 := by
  have := reads_bind h1 h2
  rwa [List.append_nil] at this

theorem reads_trail {α : Type} {m : Rd α} {e : Bytes} {a : α} {t t1 t2 : Int} (h : Reads m e a t t1) (ht : t1 = t2) :
    Reads m e a t t2 := ht ▸ h

theorem reads_bytes (s : Bytes) (t : Int) (n : Nat) (hn : s.length = n) : Reads (bytes n) s s t (t - n) := by
  intro f pre post hf _
  subst hn
  rw [bytes, if_pos (by rw [hf]; simp), hf, List.drop_left, List.take_left]

theorem leN_length : ∀ n x, (leN n x).length = n
  | 0, _ => rfl
  | n + 1, x => by rw [leN, List.length_cons, leN_length]

theorem le_leN : ∀ n x, x < 256 ^ n → le (leN n x) = x
  | 0, x, h => by simp at h; subst h; rfl
  | n + 1, x, h => by
    rw [leN, le, le_leN n _ (by rw [Nat.pow_succ] at h; omega)]
    have : (UInt8.ofNat x).toNat = x % 256 := by simp
    omega

theorem reads_uint (n x : Nat) (t : Int) (h : x < 256 ^ n) : Reads (uint n) (leN n x) x t (t - n) := by
  have h2 := reads_last (g := le) (reads_bytes (leN n x) t n (leN_length n x))
  rw [le_leN n x h] at h2
  exact h2

theorem reads_setTrail (u t : Int) : Reads (setTrail u) [] () t u := fun _ _ _ _ _ => rfl
theorem reads_getTrail (t : Int) : Reads getTrail [] t t t := fun _ _ _ _ _ => rfl

theorem asInt64_small (x : Int) (h0 : -2 ^ 63 ≤ x) (h : x < 2 ^ 63) : asInt64 x = x := by
  unfold asInt64
  omega

theorem reads_skip (s : Bytes) (t : Int) (n : Nat) (hn : s.length = n) (h : n < 2 ^ 63) :
    Reads (skip n) s () t (t - n) := by
  unfold skip
  rw [asInt64_small _ (by omega) (by omega)]
  by_cases hs : s = []
  · subst hs
    subst hn
    rw [if_neg (by simp)]
    simpa using reads_pure () t
  · have := List.length_pos_iff.mpr hs
    rw [if_pos (by omega)]
    exact reads_last (g := fun _ => ()) (reads_bytes s t n hn)

theorem reads_seek (s : Bytes) (t : Int) (ht : t = s.length) : Reads seek s () t t := by
  intro f pre post hf hl
  subst ht
  have : f.length = pre.length + (s.length + post.length) := by rw [hf]; simp
  unfold seek
  rw [asInt64_small _ (by omega) (by omega)]
  dsimp only
  rw [if_neg (by omega)]
  have : ((pre.length : Int) + s.length).toNat = pre.length + s.length := by omega
  rw [this]

/- Archives of version 3 -/

/-- A file in an archive: what the user sees of it, the data of this volume and the other fields of the header. -/
structure Entry where
  name : Bytes
  time : Nat
  attr : Nat
  size : Nat
  data : Bytes
  flags : Nat
  /-- the name in another encoding -/
  uni : Option Bytes := none
  crc : Nat := 0
  host : Bytes := [0]
  fileCrc : Bytes := [0, 0, 0, 0]
  method : Bytes := [0, 0]
  ext : Bytes := []
deriving DecidableEq, Repr

def Entry.stored (e : Entry) : Bytes :=
  e.name ++ (match e.uni with | none => [] | some u => 0 :: u)

def Entry.large (e : Entry) : Bool := e.flags.testBit 8

def Entry.headSize (e : Entry) : Nat := 32 + (if e.large then 8 else 0) + e.stored.length + e.ext.length

def Entry.high (e : Entry) : Bytes :=
  if e.large then leN 4 (e.data.length / 2 ^ 32) ++ leN 4 (e.size / 2 ^ 32) else []

/-- The header and the data of a file. -/
def Entry.enc3 (e : Entry) : Bytes :=
  (leN 2 e.crc ++ (leN 1 0x74 ++ (leN 2 e.flags ++ (leN 2 e.headSize ++ leN 4 (e.data.length % 2 ^ 32))))) ++
  ((leN 4 (e.size % 2 ^ 32) ++ (e.host ++ (e.fileCrc ++ (leN 4 e.time ++ (e.method ++ (leN 2 e.stored.length ++
    (leN 4 e.attr ++ (e.high ++ e.stored)))))))) ++ (e.ext ++ e.data))

/-- The limits of the format, without which the numbers do not fit in their fields. -/
structure Entry.Fits (e : Entry) : Prop where
  nozero : (0 : UInt8) ∉ e.name
  flags : e.flags < 65536
  hasData : e.flags.testBit 15 = true
  crc : e.crc < 65536
  host : e.host.length = 1
  fileCrc : e.fileCrc.length = 4
  method : e.method.length = 2
  time : e.time < 2 ^ 32
  attr : e.attr < 2 ^ 32
  size : e.size < if e.large then 2 ^ 64 else 2 ^ 32
  data : e.data.length < if e.large then 2 ^ 64 else 2 ^ 32
  head : e.headSize < 65536
  name : e.stored.length ≤ 8192

/-- A limit of the program, in addition. -/
structure Entry.Ok (e : Entry) : Prop extends Entry.Fits e where
  wrap : e.headSize + e.data.length % 2 ^ 32 < 2 ^ 32

/-- What is known of the file after reading. -/
def Entry.file (e : Entry) : RFile := ⟨e.name, e.time, e.attr, e.size, e.flags.testBit 0, e.flags.testBit 1⟩

theorem cstr_stored (e : Entry) (h : (0 : UInt8) ∉ e.name) : cstr e.stored = e.name := by
  unfold cstr Entry.stored
  rw [List.takeWhile_append_of_pos (by
    intro a ha
    have : a ≠ 0 := fun h0 => h (h0 ▸ ha)
    simpa using this)]
  cases e.uni <;> simp

theorem reads_block3 (crc type flags size add : Nat) (t : Int) (h1 : crc < 65536) (h2 : type < 256) (h3 : flags < 65536)
    (h4 : size < 65536) (h5 : add < 2 ^ 32) (hf : flags.testBit 15 = true) :
    Reads block3 (leN 2 crc ++ (leN 1 type ++ (leN 2 flags ++ (leN 2 size ++ leN 4 add)))) ⟨type, flags, add⟩ t
      (((size + add) % 2 ^ 32 : Nat) - 7 - 4) := by
  refine reads_bind (reads_uint 2 _ _ h1) (reads_bind (reads_uint 1 _ _ h2) (reads_bind (reads_uint 2 _ _ h3)
    (reads_bind (reads_uint 2 _ _ h4) ?_)))
  rw [if_pos hf]
  exact reads_end (reads_uint 4 add _ h5) (reads_last (g := fun _ => (⟨type, flags, add⟩ : Block)) (reads_setTrail _ _))

theorem reads_block3_short (crc type flags size : Nat) (t : Int) (h1 : crc < 65536) (h2 : type < 256)
    (h3 : flags < 65536) (h4 : size < 65536) (hf : flags.testBit 15 = false) :
    Reads block3 (leN 2 crc ++ (leN 1 type ++ (leN 2 flags ++ leN 2 size))) ⟨type, flags, 0⟩ t ((size : Int) - 7) := by
  refine reads_bind (reads_uint 2 _ _ h1) (reads_bind (reads_uint 1 _ _ h2) (reads_bind (reads_uint 2 _ _ h3) ?_))
  refine reads_end (reads_uint 2 size _ h4) ?_
  rw [if_neg (by rw [hf]; exact Bool.false_ne_true)]
  exact reads_last (g := fun _ => (⟨type, flags, 0⟩ : Block)) (reads_setTrail _ _)

theorem reads_high3 (a b : Nat) (t : Int) (ha : a < 2 ^ 32) (hb : b < 2 ^ 32) :
    Reads high3 (leN 4 a ++ leN 4 b) b t (t - 8 + a * 2 ^ 32) := by
  refine reads_bind (reads_uint 4 _ _ ha) (reads_none (reads_getTrail _) (reads_none (reads_setTrail _ _) ?_))
  exact reads_trail (reads_uint 4 _ _ hb) (by omega)

theorem reads_opt (c : Bool) (m : Rd Nat) (d a : Nat) (e : Bytes) (t t' : Int)
    (h : c = true → Reads m e a t t') (hn : c = false → e = [] ∧ a = d ∧ t' = t) : Reads (opt c m d) e a t t' := by
  cases c
  · obtain ⟨rfl, rfl, rfl⟩ := hn rfl
    exact reads_pure _ _
  · exact h rfl

/-- What the high parts of the sizes change in what is left. -/
def Entry.more (e : Entry) : Int := if e.large then ((e.data.length / 2 ^ 32 : Nat) : Int) * 2 ^ 32 - 8 else 0

theorem reads_file3 (e : Entry) (h : e.Fits) (t : Int) :
    Reads (file3 e.flags) (leN 4 (e.size % 2 ^ 32) ++ (e.host ++ (e.fileCrc ++ (leN 4 e.time ++ (e.method ++
      (leN 2 e.stored.length ++ (leN 4 e.attr ++ (e.high ++ e.stored)))))))) e.file t
      (t - 21 + e.more - e.stored.length) := by
  have hs := h.size
  have hd := h.data
  have hst : e.stored.length < 65536 := by have := h.name; omega
  refine reads_bind (reads_uint 4 _ _ (by omega)) (reads_bind (reads_skip _ _ 1 h.host (by omega))
    (reads_bind (reads_skip _ _ 4 h.fileCrc (by omega)) (reads_bind (reads_uint 4 _ _ h.time)
    (reads_bind (reads_skip _ _ 2 h.method (by omega)) (reads_bind (reads_uint 2 _ _ hst)
    (reads_bind (reads_uint 4 _ _ h.attr) ?_))))))
  refine reads_bind (a := e.size / 2 ^ 32) (t1 := t - 21 + e.more) (reads_opt _ _ _ _ _ _ _ ?_ ?_) ?_
  · intro hl
    have hl : e.large = true := hl
    rw [hl, if_pos rfl] at hs hd
    unfold Entry.high Entry.more
    rw [hl, if_pos rfl, if_pos rfl]
    exact reads_trail (reads_high3 _ _ _ (by omega) (by omega)) (by omega)
  · intro hl
    have hl : e.large = false := hl
    rw [hl, if_neg Bool.false_ne_true] at hs hd
    unfold Entry.high Entry.more
    rw [hl, if_neg Bool.false_ne_true, if_neg Bool.false_ne_true]
    exact ⟨rfl, by omega, by omega⟩
  · rw [if_neg (by have := h.name; omega)]
    have hb := reads_last (g := fun name => (⟨cstr name, e.time, e.attr, e.size % 2 ^ 32 + e.size / 2 ^ 32 * 2 ^ 32,
      e.flags.testBit 0, e.flags.testBit 1⟩ : RFile)) (reads_bytes e.stored (t - 21 + e.more) _ rfl)
    have hz : e.size % 2 ^ 32 + e.size / 2 ^ 32 * 2 ^ 32 = e.size := by omega
    have hf : (⟨cstr e.stored, e.time, e.attr, e.size % 2 ^ 32 + e.size / 2 ^ 32 * 2 ^ 32,
      e.flags.testBit 0, e.flags.testBit 1⟩ : RFile) = e.file := by
      rw [cstr_stored e h.nozero, hz, Entry.file]
    rw [← hf]
    exact hb

theorem seek_then (v : Bool × Vol) (s : Bytes) :
    Reads (seek >>= fun _ => (pure v : Rd (Bool × Vol))) s v (s.length : Int) (s.length : Int) :=
  reads_last (g := fun _ => v) (reads_seek s _ rfl)

theorem reads_entry3 (e : Entry) (h : e.Ok) (v : Vol) :
    ∃ t, Reads (step3 v) e.enc3 (false, { v with files := v.files ++ [e.file] }) 0 t := by
  have hd := h.data
  have hw := h.wrap
  have hh := h.head
  refine ⟨((e.ext ++ e.data).length : Int), reads_bind (reads_block3 _ _ _ _ _ _ h.crc (by omega) h.flags h.head (by omega) h.hasData) ?_⟩
  rw [if_neg (show ¬ (116 : Nat) = 0 by decide), if_neg (show ¬ (116 : Nat) = 115 by decide), if_pos rfl]
  refine reads_bind (reads_trail (reads_file3 e h.toFits _) (t2 := ((e.ext ++ e.data).length : Int)) ?_) (seek_then _ _)
  rw [Nat.mod_eq_of_lt hw]
  unfold Entry.headSize Entry.more
  rw [List.length_append]
  cases hl : e.large
  · rw [hl] at hd
    simp only [Bool.false_eq_true, if_false] at hd ⊢
    omega
  · rw [hl] at hd
    simp only [if_true] at hd ⊢
    omega

/-- A block which is neither a main header nor a file nor the end: a comment, a recovery record, a service block. -/
structure Other where
  type : Nat
  flags : Nat
  crc : Nat
  rest : Bytes
  data : Bytes
deriving DecidableEq, Repr

def Other.enc3 (o : Other) : Bytes :=
  if o.flags.testBit 15 then
    (leN 2 o.crc ++ (leN 1 o.type ++ (leN 2 o.flags ++ (leN 2 (11 + o.rest.length) ++ leN 4 o.data.length)))) ++
      (o.rest ++ o.data)
  else (leN 2 o.crc ++ (leN 1 o.type ++ (leN 2 o.flags ++ leN 2 (7 + o.rest.length)))) ++ o.rest

structure Other.Ok (o : Other) : Prop where
  type : 0x72 ≤ o.type ∧ o.type ≤ 0x7a ∧ o.type ≠ 0x73 ∧ o.type ≠ 0x74
  flags : o.flags < 65536
  crc : o.crc < 65536
  rest : 11 + o.rest.length < 65536
  data : 11 + o.rest.length + o.data.length < 2 ^ 32

theorem reads_other3 (o : Other) (h : o.Ok) (v : Vol) : ∃ t, Reads (step3 v) o.enc3 (false, v) 0 t := by
  have ht := h.type
  have hr := h.rest
  have hd := h.data
  unfold Other.enc3
  by_cases hf : o.flags.testBit 15 = true
  · rw [if_pos hf]
    refine ⟨((o.rest ++ o.data).length : Int), reads_bind (reads_trail (reads_block3 _ _ _ _ _ _ h.crc (by omega) h.flags hr (by omega) hf)
      (t2 := ((o.rest ++ o.data).length : Int)) ?_) ?_⟩
    · rw [List.length_append, Nat.mod_eq_of_lt hd]
      omega
    · dsimp only
      rw [if_neg (by omega), if_neg (by omega), if_neg (by omega), if_neg (by omega), if_neg (by omega)]
      exact seek_then _ _
  · rw [if_neg hf]
    refine ⟨(o.rest.length : Int), reads_bind (reads_trail (reads_block3_short _ _ _ _ _ h.crc (by omega) h.flags (by omega)
      (by simpa using hf)) (t2 := (o.rest.length : Int)) (by omega)) ?_⟩
    dsimp only
    rw [if_neg (by omega), if_neg (by omega), if_neg (by omega), if_neg (by omega), if_neg (by omega)]
    exact seek_then _ _

inductive Item where
  | file (e : Entry)
  | other (o : Other)
deriving DecidableEq, Repr

def Item.enc3 : Item → Bytes
  | .file e => e.enc3
  | .other o => o.enc3

def Item.Ok : Item → Prop
  | .file e => e.Ok
  | .other o => o.Ok

def Item.files : Item → List RFile
  | .file e => [e.file]
  | .other _ => []

/-- A volume: the flags of its main header, its blocks, and the fields of its last block. -/
structure Archive where
  mainFlags : Nat
  items : List Item
  endFlags : Nat
  /-- the number of the volume, from 0, if the flags tell that it is stored -/
  number : Nat
  mainCrc : Nat := 0
  mainRest : Bytes := [0, 0, 0, 0, 0, 0]
  endCrc : Nat := 0
  dataCrc : Bytes := [0, 0, 0, 0]
  /-- what follows the number -/
  endRest : Bytes := [0, 0]
deriving DecidableEq, Repr

def sig3 : Bytes := [82, 97, 114, 33, 26, 7, 0]

def Archive.main3 (a : Archive) : Bytes :=
  (leN 2 a.mainCrc ++ (leN 1 0x73 ++ (leN 2 a.mainFlags ++ leN 2 (7 + a.mainRest.length)))) ++ a.mainRest

def Archive.tail3 (a : Archive) : Bytes :=
  (if a.endFlags.testBit 1 then a.dataCrc else []) ++ (if a.endFlags.testBit 3 then leN 2 a.number else [])

def Archive.end3 (a : Archive) : Bytes :=
  (leN 2 a.endCrc ++ (leN 1 0x7b ++ (leN 2 a.endFlags ++ leN 2 (7 + (a.tail3 ++ a.endRest).length)))) ++ (a.tail3 ++ a.endRest)

def Archive.body3 (a : Archive) : Bytes := sig3 ++ (a.main3 ++ a.items.flatMap Item.enc3)

/-- The contents of the volume. -/
def Archive.enc3 (a : Archive) : Bytes := a.body3 ++ a.end3

structure Archive.Ok (a : Archive) : Prop where
  mainFlags : a.mainFlags < 65536
  noAdd : a.mainFlags.testBit 15 = false
  /-- the headers are not encrypted -/
  plain : a.mainFlags.testBit 7 = false
  mainCrc : a.mainCrc < 65536
  mainRest : 7 + a.mainRest.length < 65536
  items : ∀ i ∈ a.items, i.Ok
  endFlags : a.endFlags < 65536
  noAddE : a.endFlags.testBit 15 = false
  endCrc : a.endCrc < 65536
  dataCrc : a.dataCrc.length = 4
  number : a.number < 65536
  endSize : 7 + (a.tail3 ++ a.endRest).length < 65536
  /-- the number is a field of two bytes but the program reads four bytes -/
  zeros : a.endFlags.testBit 3 = true → ∃ r, a.endRest = 0 :: 0 :: r

/-- What is to be known of the volume. -/
def Archive.vol (a : Archive) : Vol where
  volumeNo := if a.endFlags.testBit 3 then a.number else 0
  newNaming := a.mainFlags.testBit 4
  multi := a.mainFlags.testBit 0
  hasNext := a.endFlags.testBit 3 && a.endFlags.testBit 0
  files := a.items.flatMap Item.files

/-- The signature is read as a block. -/
def marker : Other := ⟨0x72, 0x1a21, 0x6152, [], []⟩

theorem reads_sig3 (v : Vol) : ∃ t, Reads (step3 v) sig3 (false, v) 0 t := by
  have h := reads_other3 marker ⟨by decide, by decide, by decide, by decide, by decide⟩ v
  have e : marker.enc3 = sig3 := by decide
  rw [e] at h
  exact h

theorem reads_main3 (a : Archive) (h : a.Ok) (v : Vol) : ∃ t, Reads (step3 v) a.main3
    (false, { v with newNaming := a.mainFlags.testBit 4, multi := a.mainFlags.testBit 0 }) 0 t := by
  have hr := h.mainRest
  refine ⟨(a.mainRest.length : Int), reads_bind (reads_trail (reads_block3_short _ _ _ _ _ h.mainCrc (by omega) h.mainFlags hr h.noAdd)
    (t2 := (a.mainRest.length : Int)) (by omega)) ?_⟩
  rw [if_neg (show ¬ (115 : Nat) = 0 by decide), if_pos rfl, if_neg (by rw [h.plain]; exact Bool.false_ne_true)]
  exact seek_then _ _

theorem loop_step {step : Vol → Rd (Bool × Vol)} {enc : Bytes} {v v' : Vol} {t : Int} (h : Reads (step v) enc (false, v') 0 t)
    (f pre post : Bytes) (hf : f = pre ++ (enc ++ post)) (hl : f.length < 2 ^ 62) (n : Nat) :
    loop step f (n + 1) v pre.length = loop step f n v' (pre.length + enc.length) := by
  rw [loop, h f pre post hf hl]

theorem loop_items (f : Bytes) (hl : f.length < 2 ^ 62) : ∀ (l : List Item) (v : Vol) (pre post : Bytes) (n : Nat),
    (∀ i ∈ l, i.Ok) → f = pre ++ (l.flatMap Item.enc3 ++ post) →
    loop step3 f (l.length + n) v pre.length =
      loop step3 f n { v with files := v.files ++ l.flatMap Item.files } (pre ++ l.flatMap Item.enc3).length := by
  intro l
  induction l with
  | nil => intro v pre post n _ _; simp
  | cons i l ih =>
    intro v pre post n hk hf
    rw [List.flatMap_cons, List.append_assoc] at hf
    have hi := hk i List.mem_cons_self
    have hstep : ∃ t, Reads (step3 v) i.enc3 (false, { v with files := v.files ++ i.files }) 0 t := by
      cases i with
      | file e => exact reads_entry3 e hi v
      | other o =>
        have e : ({ v with files := v.files ++ (Item.other o).files } : Vol) = v := by
          show ({ v with files := v.files ++ [] } : Vol) = v
          rw [List.append_nil]
        rw [e]
        exact reads_other3 o hi v
    obtain ⟨t, ht⟩ := hstep
    rw [List.length_cons, show l.length + 1 + n = (l.length + n) + 1 by omega, loop_step ht f pre _ hf hl]
    rw [← List.length_append, ih _ (pre ++ i.enc3) post n (fun j hj => hk j (List.mem_cons_of_mem _ hj)) (by
      rw [hf]; simp [List.append_assoc])]
    simp [List.append_assoc]

theorem reads_skipIf (c : Bool) (s : Bytes) (t : Int) (n : Nat) (hn : s.length = n) (h : n < 2 ^ 63) :
    Reads (skipIf c n) (if c then s else []) () t (t - ((if c then n else 0 : Nat) : Int)) := by
  cases c
  · exact reads_trail (reads_pure () t) (by simp)
  · rw [skipIf, if_pos rfl, if_pos rfl, if_pos rfl]
    exact reads_skip s t n hn h

theorem leN_zeros (x : Nat) (h : x < 65536) : leN 2 x ++ [0, 0] = leN 4 x := by
  have h2 : x / 256 / 256 = 0 := by omega
  show [UInt8.ofNat x, UInt8.ofNat (x / 256), 0, 0] =
    [UInt8.ofNat x, UInt8.ofNat (x / 256), UInt8.ofNat (x / 256 / 256), UInt8.ofNat (x / 256 / 256 / 256)]
  rw [h2, show UInt8.ofNat 0 = 0 by decide]

theorem reads_end3 (a : Archive) (h : a.Ok) (v : Vol) (hv : v.volumeNo = 0) (hn : v.hasNext = false) (f pre post : Bytes)
    (hf : f = pre ++ (a.end3 ++ post)) (hl : f.length < 2 ^ 62) :
    ∃ p t, step3 v f pre.length 0 = .ok ((true, { v with volumeNo := a.vol.volumeNo, hasNext := a.vol.hasNext }), p, t) := by
  have key : ∀ enc rest, enc ++ rest = a.end3 → ∀ t, Reads (step3 v) enc
      (true, { v with volumeNo := a.vol.volumeNo, hasNext := a.vol.hasNext }) 0 t →
      ∃ p t, step3 v f pre.length 0 = .ok ((true, { v with volumeNo := a.vol.volumeNo, hasNext := a.vol.hasNext }), p, t) := by
    intro enc rest e t hr
    exact ⟨_, t, hr f pre (rest ++ post) (by rw [hf, ← e, List.append_assoc]) hl⟩
  have hb := reads_block3_short a.endCrc 0x7b a.endFlags _ 0 h.endCrc (by omega) h.endFlags h.endSize h.noAddE
  have hv' : ({ v with volumeNo := 0, hasNext := false } : Vol) = v := by rw [← hv, ← hn]
  by_cases h3 : a.endFlags.testBit 3 = true
  · obtain ⟨r, hr⟩ := h.zeros h3
    refine key ((leN 2 a.endCrc ++ (leN 1 0x7b ++ (leN 2 a.endFlags ++ leN 2 (7 + (a.tail3 ++ a.endRest).length)))) ++
      ((if a.endFlags.testBit 1 then a.dataCrc else []) ++ leN 4 a.number)) r ?_ (((7 + (a.tail3 ++ a.endRest).length : Nat) : Int) - 7 - ((if a.endFlags.testBit 1 then (4 : Nat) else 0 : Nat) : Int) - ((4 : Nat) : Int)) (reads_bind hb ?_)
    · unfold Archive.end3 Archive.tail3
      rw [if_pos h3, hr, ← leN_zeros _ h.number]
      simp [List.append_assoc]
    · rw [if_neg (show ¬ (123 : Nat) = 0 by decide), if_neg (show ¬ (123 : Nat) = 115 by decide),
        if_neg (show ¬ (123 : Nat) = 116 by decide), if_pos rfl]
      refine reads_bind (reads_skipIf _ _ _ 4 h.dataCrc (by omega)) ?_
      rw [if_pos h3]
      have e : a.vol.volumeNo = a.number ∧ a.vol.hasNext = a.endFlags.testBit 0 := by
        unfold Archive.vol
        dsimp only
        rw [if_pos h3, h3, Bool.true_and]
        exact ⟨rfl, rfl⟩
      rw [e.1, e.2]
      exact reads_last (g := fun n => (true, { v with volumeNo := n, hasNext := a.endFlags.testBit 0 }))
        (reads_uint 4 a.number _ (by have := h.number; omega))
  · refine key ((leN 2 a.endCrc ++ (leN 1 0x7b ++ (leN 2 a.endFlags ++ leN 2 (7 + (a.tail3 ++ a.endRest).length)))) ++
      (if a.endFlags.testBit 1 then a.dataCrc else [])) a.endRest ?_ (((7 + (a.tail3 ++ a.endRest).length : Nat) : Int) - 7 - ((if a.endFlags.testBit 1 then (4 : Nat) else 0 : Nat) : Int)) (reads_bind hb ?_)
    · unfold Archive.end3 Archive.tail3
      rw [if_neg h3]
      simp [List.append_assoc]
    · rw [if_neg (show ¬ (123 : Nat) = 0 by decide), if_neg (show ¬ (123 : Nat) = 115 by decide),
        if_neg (show ¬ (123 : Nat) = 116 by decide), if_pos rfl]
      refine reads_end (reads_skipIf _ _ _ 4 h.dataCrc (by omega)) ?_
      rw [if_neg h3]
      have e : a.vol.volumeNo = 0 ∧ a.vol.hasNext = false := by
        unfold Archive.vol
        dsimp only
        rw [if_neg h3, show a.endFlags.testBit 3 = false by simpa using h3, Bool.false_and]
        exact ⟨rfl, rfl⟩
      rw [e.1, e.2, hv']
      exact reads_pure _ _

theorem version_sig3 (s : Bytes) (h : s ≠ []) : version (sig3 ++ s) = 3 := by
  obtain ⟨c, s, rfl⟩ := List.exists_cons_of_ne_nil h
  unfold version sig3
  rw [if_neg (by simp)]
  rw [if_neg (by simp), if_pos (by simp)]

/-- What is known before the last block. -/
def Archive.start (a : Archive) : Vol where
  newNaming := a.mainFlags.testBit 4
  multi := a.mainFlags.testBit 0
  files := a.items.flatMap Item.files

/-- The blocks of a volume are read one after the other. -/
theorem loop_body3 (a : Archive) (h : a.Ok) (post : Bytes) (hl : (a.body3 ++ post).length < 2 ^ 62) (n : Nat) :
    loop step3 (a.body3 ++ post) (a.items.length + n + 2) {} 0 = loop step3 (a.body3 ++ post) n
      a.start a.body3.length := by
  obtain ⟨t1, r1⟩ := reads_sig3 {}
  have e1 := loop_step r1 (a.body3 ++ post) [] ((a.main3 ++ a.items.flatMap Item.enc3) ++ post)
    (by simp [Archive.body3, List.append_assoc]) hl (a.items.length + n + 1)
  obtain ⟨t2, r2⟩ := reads_main3 a h {}
  have e2 := loop_step r2 (a.body3 ++ post) sig3 (a.items.flatMap Item.enc3 ++ post)
    (by simp [Archive.body3, List.append_assoc]) hl (a.items.length + n)
  have e3 := loop_items (a.body3 ++ post) hl a.items
    { newNaming := a.mainFlags.testBit 4, multi := a.mainFlags.testBit 0 } (sig3 ++ a.main3) post n h.items
    (by simp [Archive.body3, List.append_assoc])
  rw [List.length_append] at e3
  have e0 : ([] : Bytes).length = 0 := rfl
  rw [e0, Nat.zero_add] at e1
  rw [show a.items.length + n + 2 = a.items.length + n + 1 + 1 by omega, e1, e2, e3]
  simp [Archive.body3, Archive.start, List.append_assoc]

/-- C91, first part: of a volume of version 3 everything is read as it was written: its number, the naming scheme, if
it is one of several volumes, if there is a next one, and the names, times, attributes, sizes and marks of the files.
This holds whatever follows the volume. -/
theorem volume3_read_as_written (a : Archive) (h : a.Ok) (post : Bytes) (hl : (a.enc3 ++ post).length < 2 ^ 62) :
    read (a.enc3 ++ post) (a.items.length + 3) = some (.ok a.vol) := by
  have e : a.enc3 ++ post = a.body3 ++ (a.end3 ++ post) := by simp [Archive.enc3, List.append_assoc]
  have hver : version (a.enc3 ++ post) = 3 := by
    have : a.enc3 ++ post = sig3 ++ (a.main3 ++ (a.items.flatMap Item.enc3 ++ (a.end3 ++ post))) := by
      simp [Archive.enc3, Archive.body3, List.append_assoc]
    rw [this]
    refine version_sig3 _ ?_
    unfold Archive.main3
    simp [leN]
  rw [e] at hver hl ⊢
  rw [read, if_pos hver, show a.items.length + 3 = a.items.length + 1 + 2 by omega, loop_body3 a h _ hl]
  obtain ⟨p, t, he⟩ := reads_end3 a h (a.start) rfl rfl (a.body3 ++ (a.end3 ++ post)) a.body3 post rfl hl
  rw [loop, he]
  rfl

/-- More time changes nothing. -/
theorem loop_more (step : Vol → Rd (Bool × Vol)) (f : Bytes) : ∀ n m v pos r, loop step f n v pos = some r → n ≤ m →
    loop step f m v pos = some r := by
  intro n
  induction n with
  | zero => intro m v pos r h _; cases h
  | succ n ih =>
    intro m v pos r h hm
    obtain ⟨m, rfl⟩ : ∃ k, m = k + 1 := ⟨m - 1, by omega⟩
    rw [loop] at h ⊢
    split at h
    · exact h
    · exact h
    · exact h
    · exact ih m _ _ r h (by omega)

theorem step3_at_end (v : Vol) (f : Bytes) : step3 v f f.length 0 = .bad := by
  have h : bytes 2 f f.length 0 = .bad := by rw [bytes, if_neg (by omega)]
  have h2 : uint 2 f f.length 0 = .bad := by
    show Rd.bind (bytes 2) _ f f.length 0 = .bad
    rw [Rd.bind, h]
  have h3 : block3 f f.length 0 = .bad := by
    show Rd.bind (uint 2) _ f f.length 0 = .bad
    rw [Rd.bind, h2]
  show Rd.bind block3 _ f f.length 0 = .bad
  rw [Rd.bind, h3]

/-- A volume which ends after its last file, without an end of archive, is refused. -/
theorem volume3_without_end_refused (a : Archive) (h : a.Ok) (hl : a.body3.length < 2 ^ 62) :
    read a.body3 (a.items.length + 3) = some .bad := by
  have hver : version a.body3 = 3 := by
    refine version_sig3 _ ?_
    unfold Archive.main3
    simp [leN]
  have e := loop_body3 a h [] (by rw [List.append_nil]; exact hl) 1
  rw [List.append_nil] at e
  rw [read, if_pos hver, show a.items.length + 3 = a.items.length + 1 + 2 by omega, e, loop]
  split
  next => rfl
  next he => rw [step3_at_end] at he; cases he
  next he => have := (step3_round _ _ _ _ _ _ _ he).1; omega
  next he => have := (step3_round _ _ _ _ _ _ _ he).1; omega

end Verif.Rar
