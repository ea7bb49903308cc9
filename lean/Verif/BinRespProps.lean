import Verif.BinResp
import Verif.BinReqProps
import Verif.TextProps
import Verif.RecordProps
import Verif.MsgLogProps
/-! C119: answers of the binary protocol. -/
namespace Verif.BinResp
open CStr BinReq
open Text (I32 I64 splitHi splitLo joinInt64)

/-! ### Records -/

theorem wordsB_cons (w : I32) (l : List I32) : wordsB (w :: l) = be w ++ wordsB l := rfl
theorem wordsB_length (l : List I32) : (wordsB l).length = 4 * l.length := by
  induction l with
  | nil => rfl
  | cons w l ih => rw [wordsB_cons, List.length_append, ih, be_length, List.length_cons]; omega

theorem readWords_eq (l : List I32) (r : Bytes) : readWords l.length (wordsB l ++ r) = some (l, r) := by
  induction l with
  | nil => rfl
  | cons w l ih =>
    rw [wordsB_cons, List.append_assoc]
    simp only [List.length_cons, readWords]
    rw [if_neg (by rw [List.length_append, be_length]; omega), drop_be, ih, u32_be]

theorem readWords_len (n : Nat) (l : List I32) (r : Bytes) (h : l.length = n) : readWords n (wordsB l ++ r) = some (l, r) := by subst h; exact readWords_eq l r

theorem lens_length (p : Nat) (l : List Bytes) : (lens p l).length = l.length := by
  induction l with
  | nil => rfl
  | cons a l ih => cases l with
    | nil => rfl
    | cons b l => simp only [lens, List.length_cons] at ih ⊢; omega

theorem textsB_cons (a : Bytes) (l : List Bytes) : textsB (a :: l) = (a ++ [0]) ++ textsB l := rfl

theorem readTexts_eq (p : Nat) (l : List Bytes) (r : Bytes) (hne : l ≠ []) (hp : ∀ s ∈ l, Plain s) (hs : (textsB l).length + p < 2 ^ 32) :
    readTexts ((lens p l).map (BitVec.ofNat 32)) (textsB l ++ (List.replicate p 0 ++ r)) = some (l, r) := by
  induction l with
  | nil => exact absurd rfl hne
  | cons a l ih =>
    have ha : Plain a := hp a List.mem_cons_self
    have hstr : ∀ t, str ((a ++ [0]) ++ t) = some a := fun t => by rw [List.append_assoc]; exact str_append a t ha
    rw [textsB_cons, List.length_append, List.length_append] at hs
    rw [textsB_cons]
    cases l with
    | nil =>
      have e : (BitVec.ofNat 32 (a.length + 1 + p)).toNat = a.length + 1 + p := by
        rw [BitVec.toNat_ofNat, Nat.mod_eq_of_lt]
        simp only [List.length_singleton] at hs; omega
      simp only [lens, List.map_cons, List.map_nil, readTexts]
      rw [List.append_assoc, hstr]
      simp only [e]
      rw [if_neg (by simp [textsB]; omega)]
      have : (a ++ [0] ++ (textsB [] ++ (List.replicate p (0 : UInt8) ++ r))).drop (a.length + 1 + p) = r := by
        have e2 : a ++ [0] ++ (textsB [] ++ (List.replicate p (0 : UInt8) ++ r)) = (a ++ [0] ++ List.replicate p 0) ++ r := by simp [textsB]
        rw [e2]; exact List.drop_left' (by simp; omega)
      rw [this]
    | cons b l =>
      have e : (BitVec.ofNat 32 (a.length + 1)).toNat = a.length + 1 := by
        rw [BitVec.toNat_ofNat, Nat.mod_eq_of_lt]
        simp only [List.length_singleton] at hs; omega
      simp only [lens, List.map_cons, readTexts]
      rw [List.append_assoc, hstr]
      simp only [e]
      rw [if_neg (by simp), List.drop_left' (by simp)]
      have := ih (by simp) (fun s hs => hp s (List.mem_cons_of_mem _ hs)) (by omega)
      rw [this]

theorem record_length (pos : Nat) (pre : List I32) (texts : List Bytes) (post : List I32) :
    pos + (record pos pre texts post).length = align (pos + (4 * (pre.length + texts.length + post.length) + (textsB texts).length)) := by
  unfold record align
  dsimp only
  simp only [List.length_append, wordsB_length, List.length_map, lens_length, List.length_replicate, pad]
  omega

theorem readRecord_eq (pos : Nat) (pre : List I32) (texts : List Bytes) (post : List I32) (r : Bytes) (hne : texts ≠ []) (hp : ∀ s ∈ texts, Plain s)
    (hs : (record pos pre texts post).length < 2 ^ 32) :
    readRecord pre.length texts.length post.length (record pos pre texts post ++ r) = some ((pre, texts, post), r) := by
  unfold record at hs ⊢
  dsimp only at hs ⊢
  generalize pad _ = p at hs ⊢
  have hs2 : (textsB texts).length + p < 2 ^ 32 := by
    simp only [List.length_append, List.length_replicate] at hs; omega
  unfold readRecord
  rw [List.append_assoc, readWords_len _ _ _ (by simp only [List.length_append, List.length_map, lens_length]; omega)]
  dsimp only
  rw [List.drop_left' rfl, List.take_left' (by rw [List.length_map, lens_length]), List.append_assoc, readTexts_eq p texts r hne hp hs2]
  dsimp only
  rw [List.take_left' rfl, ← List.append_assoc, List.drop_left' (by rw [List.length_append, List.length_map, lens_length])]

/-! ### Lists of records -/

/-- What an entry consists of. -/
structure Shape (α : Type) where
  pre : α → List I32
  texts : α → List Bytes
  post : α → List I32

def Shape.write {α : Type} (s : Shape α) (pos : Nat) (a : α) : Bytes := record pos (s.pre a) (s.texts a) (s.post a)
def Shape.fields {α : Type} (s : Shape α) (a : α) : List I32 × List Bytes × List I32 := (s.pre a, s.texts a, s.post a)
/-- The bytes of an entry before padding. -/
def Shape.raw {α : Type} (s : Shape α) (a : α) : Nat := 4 * ((s.pre a).length + (s.texts a).length + (s.post a).length) + (textsB (s.texts a)).length

theorem writeMany_read {α : Type} (s : Shape α) (np nt nq : Nat) (l : List α) (buf : Bytes) (h1 : ∀ a ∈ l, (s.pre a).length = np) (h2 : ∀ a ∈ l, (s.texts a).length = nt)
    (h3 : ∀ a ∈ l, (s.post a).length = nq) (hnt : nt ≠ 0) (hp : ∀ a ∈ l, ∀ t ∈ s.texts a, Plain t) (hs : (writeMany s.write l buf).length < 2 ^ 32) :
    ∃ d, writeMany s.write l buf = buf ++ d ∧ ∀ r, readMany np nt nq l.length (d ++ r) = some (l.map s.fields, r) := by
  induction l generalizing buf with
  | nil => exact ⟨[], by simp [writeMany], fun r => rfl⟩
  | cons a l ih =>
    obtain ⟨d, e, hd⟩ := ih (buf ++ s.write buf.length a) (fun x hx => h1 x (List.mem_cons_of_mem _ hx)) (fun x hx => h2 x (List.mem_cons_of_mem _ hx))
      (fun x hx => h3 x (List.mem_cons_of_mem _ hx)) (fun x hx => hp x (List.mem_cons_of_mem _ hx)) (by simpa only [writeMany] using hs)
    refine ⟨s.write buf.length a ++ d, by simp only [writeMany]; rw [e, List.append_assoc], fun r => ?_⟩
    have hl : (s.write buf.length a).length < 2 ^ 32 := by
      simp only [writeMany] at hs; rw [e] at hs; simp only [List.length_append] at hs; omega
    have k := readRecord_eq buf.length (s.pre a) (s.texts a) (s.post a) (d ++ r)
      (fun e => hnt (by rw [← h2 a List.mem_cons_self, e]; rfl)) (hp a List.mem_cons_self) hl
    rw [h1 a List.mem_cons_self, h2 a List.mem_cons_self, h3 a List.mem_cons_self] at k
    simp only [List.length_cons, readMany, List.map_cons]
    rw [List.append_assoc]
    show (match readRecord np nt nq (record buf.length (s.pre a) (s.texts a) (s.post a) ++ (d ++ r)) with
      | none => none
      | some (e, r) => match readMany np nt nq l.length r with
        | none => none
        | some (l, r) => some (e :: l, r)) = _
    rw [k]
    dsimp only
    rw [hd r]
    rfl

theorem align_add (a b : Nat) (h : a % 4 = 0) : align (a + b) = a + align b := by
  unfold align
  have : (a + b) % 4 = b % 4 := by omega
  rw [this]; omega
theorem align_mod (a : Nat) : align a % 4 = 0 := by
  unfold align; split <;> omega

theorem writeMany_length {α : Type} (s : Shape α) (l : List α) (buf : Bytes) (h : buf.length % 4 = 0) :
    (writeMany s.write l buf).length = buf.length + (l.map (fun a => align (s.raw a))).sum := by
  induction l generalizing buf with
  | nil => rfl
  | cons a l ih =>
    have e : (buf ++ s.write buf.length a).length = buf.length + align (s.raw a) := by
      rw [List.length_append]
      show buf.length + (record buf.length (s.pre a) (s.texts a) (s.post a)).length = _
      rw [record_length, align_add _ _ h]; rfl
    have m := align_mod (s.raw a)
    simp only [writeMany, List.map_cons, List.sum_cons]
    rw [ih _ (by rw [e]; omega), e]; omega

theorem writeMany_mod {α : Type} (s : Shape α) (l : List α) (buf : Bytes) (h : buf.length % 4 = 0) : (writeMany s.write l buf).length % 4 = 0 := by
  induction l generalizing buf with
  | nil => exact h
  | cons a l ih =>
    refine ih _ ?_
    rw [List.length_append]
    show (buf.length + (record buf.length (s.pre a) (s.texts a) (s.post a)).length) % 4 = 0
    rw [record_length]; exact align_mod _

/-- A sum of sizes, each aligned, is the sum of the aligned sizes. -/
theorem foldl_align {α : Type} (f : α → Nat) (l : List α) (n : Nat) (h : n % 4 = 0) :
    l.foldl (fun n a => align (n + f a)) n = n + (l.map (fun a => align (f a))).sum := by
  induction l generalizing n with
  | nil => rfl
  | cons a l ih =>
    have m := align_mod (f a)
    simp only [List.foldl_cons, List.map_cons, List.sum_cons]
    rw [align_add _ _ h, ih _ (by omega)]; omega

theorem sum_mod {α : Type} (f : α → Nat) (l : List α) : (l.map (fun a => align (f a))).sum % 4 = 0 := by
  induction l with
  | nil => rfl
  | cons a l ih =>
    have m := align_mod (f a)
    simp only [List.map_cons, List.sum_cons]; omega

/-! ### Simple answers -/

theorem toNat_small (n : Nat) (h : n < 2 ^ 31) : (BitVec.ofNat 32 n).toNat = n := by rw [BitVec.toNat_ofNat, Nat.mod_eq_of_lt (by omega)]

theorem receiveBool_eq (s : Bytes) (size success len : I32) (r : Bytes) (h : readWords 4 s = some ([signature, size, success, len], r)) (hs : size = 16) :
    receiveBool s = match recv len.toNat r with
      | none => none
      | some (buf, _) => (str buf).map (fun t => (success != 0, t)) := by
  unfold receiveBool
  rw [h]
  dsimp only
  rw [if_neg (by simp [hs])]
  rfl

/-- The client gets the answer and the text the server has sent. -/
theorem bool_received (success : Bool) (text rest : Bytes) (ht : Plain text) (hl : text.length + 1 < 2 ^ 31) :
    receiveBool (sendBool success text ++ rest) = some (success, text) := by
  have e : readWords 4 (sendBool success text ++ rest) = some ([signature, 16, if success then 1 else 0, BitVec.ofNat 32 (text.length + 1)], (text ++ [0]) ++ rest) := by
    unfold sendBool
    rw [List.append_assoc, readWords_len 4 _ _ rfl]
  have w : ((if success = true then (1 : I32) else 0) != 0) = success := by cases success <;> rfl
  rw [receiveBool_eq _ _ _ _ _ e rfl, toNat_small _ hl, recv_len _ (by simp)]
  dsimp only
  rw [str_append _ _ ht, Option.map_some, w]

example : receiveBool (sendBool true (lit "Command completed successfully")) = some (true, lit "Command completed successfully") := by
  have := bool_received true (lit "Command completed successfully") [] (by unfold Plain; decide +kernel) (by decide +kernel)
  rwa [List.append_nil] at this

/-! ### The queue -/

/-- The texts of a group and of its files are C strings; its parameters are as `SetParameter` keeps them: no two with the same name, none without value. -/
structure Sound (n : Nzb) : Prop where
  texts : ∀ t ∈ [n.filename, n.name, n.destDir, n.category, n.queuedFilename], Plain t
  params : ∀ p ∈ n.params, Plain p.1 ∧ Plain p.2
  values : ∀ p ∈ n.params, p.2 ≠ []
  names : n.params.Pairwise (fun p q => Record.sameName p.1 q.1 = false)
  files : ∀ f ∈ n.files, Plain f.subject ∧ Plain f.filename

def nzbShape (m : Nzb → Bool) : Shape Nzb :=
  ⟨fun n => [n.id, n.kind, splitLo n.size, splitHi n.size, splitLo n.remaining, splitHi n.remaining, splitLo n.pausedSize, splitHi n.pausedSize, n.pausedCount,
    n.remainingPars, n.priority, bit (m n)], fun n => [n.filename, n.name, n.destDir, n.category, n.queuedFilename], fun _ => []⟩
def paramShape : Shape (Nat × (Bytes × Bytes)) := ⟨fun p => [BitVec.ofNat 32 p.1], fun p => [p.2.1, p.2.2], fun _ => []⟩
def fileShape (m : File → I32) : Shape (Nat × File) :=
  ⟨fun p => [p.2.id, BitVec.ofNat 32 p.1, splitLo p.2.size, splitHi p.2.size, splitLo p.2.remaining, splitHi p.2.remaining, bit p.2.paused, bit p.2.confirmed,
    p.2.active, m p.2], fun p => [p.2.subject, p.2.filename], fun _ => []⟩

theorem nzb_write (m : Nzb → Bool) : nzbEntry m = (nzbShape m).write := rfl
theorem param_write : paramEntry = paramShape.write := rfl
theorem file_write (m : File → I32) : fileEntry m = (fileShape m).write := rfl

theorem sum_params (i : Nat) (q : List Nzb) (f : Bytes × Bytes → Nat) :
    ((allParams i q).map (fun p => f p.2)).sum = (q.map (fun n => (n.params.map f).sum)).sum := by
  induction q generalizing i with
  | nil => rfl
  | cons n q ih =>
    simp only [allParams, List.map_append, List.sum_append, List.map_cons, List.sum_cons, ih, List.map_map]
    rfl

theorem sum_files (i : Nat) (q : List Nzb) (f : File → Nat) :
    ((allFiles i q).map (fun p => f p.2)).sum = (q.map (fun n => (n.files.map f).sum)).sum := by
  induction q generalizing i with
  | nil => rfl
  | cons n q ih =>
    simp only [allFiles, List.map_append, List.sum_append, List.map_cons, List.sum_cons, ih, List.map_map]
    rfl

def rawNzb (z : Nzb) : Nat := (z.filename.length + 1) + (z.name.length + 1) + (z.destDir.length + 1) + (z.category.length + 1) + (z.queuedFilename.length + 1)
def rawParam (p : Bytes × Bytes) : Nat := 12 + (p.1.length + 1) + (p.2.length + 1)
def rawFile (f : File) : Nat := 48 + (f.subject.length + 1) + (f.filename.length + 1)

theorem nzb_raw (m : Nzb → Bool) (z : Nzb) : (nzbShape m).raw z = 68 + rawNzb z := by
  simp only [Shape.raw, nzbShape, textsB, rawNzb, List.flatMap_cons, List.flatMap_nil, List.length_append, List.length_cons, List.length_nil]; omega
theorem param_raw (p : Nat × (Bytes × Bytes)) : paramShape.raw p = rawParam p.2 := by
  simp only [Shape.raw, paramShape, textsB, rawParam, List.flatMap_cons, List.flatMap_nil, List.length_append, List.length_cons, List.length_nil]; omega
theorem file_raw (m : File → I32) (p : Nat × File) : (fileShape m).raw p = rawFile p.2 := by
  simp only [Shape.raw, fileShape, textsB, rawFile, List.flatMap_cons, List.flatMap_nil, List.length_append, List.length_cons, List.length_nil]; omega

theorem sizeNzb_fold (q : List Nzb) (n : Nat) (h : n % 4 = 0) :
    q.foldl sizeNzb n = n + (q.map (fun z => align (rawNzb z) + (z.params.map (fun p => align (rawParam p))).sum)).sum := by
  induction q generalizing n with
  | nil => rfl
  | cons z q ih =>
    have e : sizeNzb n z = n + align (rawNzb z) + (z.params.map (fun p => align (rawParam p))).sum := by
      have m := align_mod (rawNzb z)
      show z.params.foldl (fun n p => align (n + rawParam p)) (align (n + rawNzb z)) = _
      rw [align_add _ _ h, foldl_align _ _ _ (by omega)]
    have m := align_mod (rawNzb z)
    have m2 := sum_mod rawParam z.params
    simp only [List.foldl_cons, List.map_cons, List.sum_cons]
    rw [e, ih _ (by omega)]; omega

theorem sizeFile_fold (q : List Nzb) (n : Nat) (h : n % 4 = 0) :
    q.foldl (fun n z => z.files.foldl sizeFile n) n = n + (q.map (fun z => (z.files.map (fun p => align (rawFile p))).sum)).sum := by
  induction q generalizing n with
  | nil => rfl
  | cons z q ih =>
    have e : z.files.foldl sizeFile n = n + (z.files.map (fun p => align (rawFile p))).sum := foldl_align rawFile _ _ h
    have m2 := sum_mod rawFile z.files
    simp only [List.foldl_cons, List.map_cons, List.sum_cons]
    rw [e, ih _ (by omega)]; omega

theorem sum_split {α : Type} (f g : α → Nat) (l : List α) : (l.map (fun a => f a + g a)).sum = (l.map f).sum + (l.map g).sum := by
  induction l with
  | nil => rfl
  | cons a l ih => simp only [List.map_cons, List.sum_cons, ih]; omega
theorem sum_const {α : Type} (k : Nat) (l : List α) : (l.map (fun _ => k)).sum = l.length * k := by
  induction l with
  | nil => simp
  | cons a l ih => simp only [List.map_cons, List.sum_cons, ih, List.length_cons, Nat.add_mul]; omega

theorem sum_group_mod (q : List Nzb) : (q.map (fun z => align (rawNzb z) + (z.params.map (fun p => align (rawParam p))).sum)).sum % 4 = 0 := by
  induction q with
  | nil => rfl
  | cons z q ih =>
    have m := align_mod (rawNzb z)
    have m2 := sum_mod rawParam z.params
    simp only [List.map_cons, List.sum_cons]; omega

/-- Whatever is in the queue: the entries written to the buffer fill exactly the size reserved for it. -/
theorem list_size (mn : Nzb → Bool) (mf : File → I32) (q : List Nzb) : (listData mn mf q).length = listSize q := by
  have g := sum_group_mod q
  unfold listData listSize
  rw [sizeNzb_fold _ _ (by omega), sizeFile_fold _ _ (by omega), nzb_write, param_write, file_write,
    writeMany_length _ _ _ (writeMany_mod _ _ _ (writeMany_mod _ _ _ rfl)), writeMany_length _ _ _ (writeMany_mod _ _ _ rfl), writeMany_length _ _ _ rfl]
  simp only [nzb_raw, param_raw, file_raw]
  rw [sum_params 1 q (fun p => align (rawParam p)), sum_files 1 q (fun f => align (rawFile f)), sum_split]
  have : (fun a => align (68 + rawNzb a)) = (fun a => 68 + align (rawNzb a)) := funext (fun a => align_add _ _ rfl)
  rw [this, sum_split (fun _ => 68), sum_const]
  simp only [List.length_nil]; omega

/-! ### The client's queue -/

/-- What the client should know of a group: everything which was sent of it, and the matches. -/
def seen (mn : Nzb → Bool) (mf : File → I32) (n : Nzb) : Seen := ⟨n, mn n, n.files.map (fun f => mf f != 0)⟩
def seen0 (mn : Nzb → Bool) (n : Nzb) : Seen := ⟨{ n with params := [], files := [] }, mn n, []⟩
def seen1 (mn : Nzb → Bool) (n : Nzb) : Seen := ⟨{ n with files := [] }, mn n, []⟩

theorem bit_ne (b : Bool) : (bit b != 0) = b := by cases b <;> rfl

theorem ofNzbEntry_eq (mn : Nzb → Bool) (n : Nzb) : ofNzbEntry ((nzbShape mn).fields n) = some (seen0 mn n) := by
  unfold Shape.fields nzbShape ofNzbEntry seen0
  dsimp only
  rw [Text.join_split, Text.join_split, Text.join_split, bit_ne]

theorem foldAll_nzb (mn : Nzb → Bool) (q : List Nzb) (done : List Seen) :
    foldAll (fun q e => (ofNzbEntry e).map (fun s => q ++ [s])) (q.map (nzbShape mn).fields) done = some (done ++ q.map (seen0 mn)) := by
  induction q generalizing done with
  | nil => simp [foldAll]
  | cons n q ih =>
    simp only [List.map_cons, foldAll]
    rw [ofNzbEntry_eq, Option.map_some]
    dsimp only
    rw [ih, List.append_assoc]; rfl

theorem modify_at {α : Type} (f : α → α) (l : List α) (x : α) (r : List α) : (l ++ x :: r).modify l.length f = l ++ f x :: r := by
  induction l with
  | nil => rfl
  | cons y l ih => simpa using ih

theorem index_toNat (k : Nat) (h : k + 1 < 2 ^ 31) : (BitVec.ofNat 32 (k + 1) - 1).toNat = k := by
  have : BitVec.ofNat 32 (k + 1) = BitVec.ofNat 32 k + 1 := by rw [BitVec.ofNat_add]; rfl
  rw [this, BitVec.add_sub_cancel]
  exact toNat_small k (by omega)

theorem onNzb_at (done : List Seen) (s : Seen) (rest : List Seen) (f : Seen → Seen) (h : done.length + 1 < 2 ^ 31) :
    onNzb (done ++ s :: rest) (BitVec.ofNat 32 (done.length + 1)) f = some (done ++ f s :: rest) := by
  unfold onNzb
  dsimp only
  rw [index_toNat _ h, if_pos (by simp), modify_at]

theorem foldAll_append {α β : Type} (f : β → α → Option β) (a b : List α) (x : β) :
    foldAll f (a ++ b) x = (foldAll f a x).bind (foldAll f b) := by
  induction a generalizing x with
  | nil => rfl
  | cons y a ih =>
    simp only [List.cons_append, foldAll]
    cases f x y with
    | none => rfl
    | some z => exact ih z

/-- Entries of one group. -/
theorem foldAll_at {α : Type} (step : List Seen → List I32 × List Bytes × List I32 → Option (List Seen)) (g : α → List I32 × List Bytes × List I32) (F : α → Seen → Seen)
    (done rest : List Seen) (h : ∀ a s, step (done ++ s :: rest) (g a) = some (done ++ F a s :: rest)) (l : List α) (s : Seen) :
    foldAll step (l.map g) (done ++ s :: rest) = some (done ++ (l.foldl (fun s a => F a s) s) :: rest) := by
  induction l generalizing s with
  | nil => rfl
  | cons a l ih =>
    simp only [List.map_cons, foldAll, List.foldl_cons]
    rw [h a s]
    exact ih _

theorem params_seen (mn : Nzb → Bool) (n : Nzb) (hv : ∀ p ∈ n.params, p.2 ≠ []) (hd : n.params.Pairwise (fun p q => Record.sameName p.1 q.1 = false)) :
    n.params.foldl (fun s p => { s with nzb := { s.nzb with params := Record.setParameter s.nzb.params p.1 p.2 } }) (seen0 mn n) = seen1 mn n := by
  have k : ∀ (ps : List (Bytes × Bytes)) (s : Seen),
      ps.foldl (fun (s : Seen) p => ({ s with nzb := { s.nzb with params := Record.setParameter s.nzb.params p.1 p.2 } } : Seen)) s
        = { s with nzb := { s.nzb with params := (ps.map some).foldl Record.addParameter s.nzb.params } } := by
    intro ps
    induction ps with
    | nil => intro s; rfl
    | cons p ps ih => intro s; simp only [List.foldl_cons, List.map_cons]; rw [ih]; rfl
  rw [k]
  show (⟨{ n with params := (n.params.map some).foldl Record.addParameter [], files := [] }, mn n, []⟩ : Seen) = _
  rw [Record.addParameters n.params [] hv hd]
  rfl

theorem foldAll_params (mn : Nzb → Bool) (q : List Nzb) (hq : ∀ n ∈ q, Sound n) (done : List Seen) (hl : done.length + q.length < 2 ^ 31) :
    foldAll addParam ((allParams (done.length + 1) q).map paramShape.fields) (done ++ q.map (seen0 mn)) = some (done ++ q.map (seen1 mn)) := by
  induction q generalizing done with
  | nil => rfl
  | cons n q ih =>
    have hn := hq n List.mem_cons_self
    have hl' : done.length + 1 < 2 ^ 31 := by simp only [List.length_cons] at hl; omega
    simp only [allParams, List.map_cons, List.map_append, List.map_map]
    rw [foldAll_append, foldAll_at addParam (paramShape.fields ∘ fun p => (done.length + 1, p))
      (fun p s => { s with nzb := { s.nzb with params := Record.setParameter s.nzb.params p.1 p.2 } }) done _ (fun p s => onNzb_at done s _ _ hl')]
    rw [params_seen mn n hn.values hn.names, Option.bind_some]
    have := ih (fun m hm => hq m (List.mem_cons_of_mem _ hm)) (done ++ [seen1 mn n]) (by simp only [List.length_cons, List.length_append, List.length_nil] at hl ⊢; omega)
    simpa [List.length_append, List.append_assoc] using this

theorem files_seen (mn : Nzb → Bool) (mf : File → I32) (n : Nzb) :
    n.files.foldl (fun s f => { s with nzb := { s.nzb with files := s.nzb.files ++ [f] }, hits := s.hits ++ [mf f != 0] }) (seen1 mn n) = seen mn mf n := by
  have k : ∀ (fs : List File) (s : Seen),
      fs.foldl (fun (s : Seen) f => ({ s with nzb := { s.nzb with files := s.nzb.files ++ [f] }, hits := s.hits ++ [mf f != 0] } : Seen)) s
        = { s with nzb := { s.nzb with files := s.nzb.files ++ fs }, hits := s.hits ++ fs.map (fun f => mf f != 0) } := by
    intro fs
    induction fs with
    | nil => intro s; simp
    | cons f fs ih => intro s; simp only [List.foldl_cons, List.map_cons]; rw [ih]; simp
  rw [k]; rfl

theorem addFile_at (mf : File → I32) (done : List Seen) (s : Seen) (rest : List Seen) (f : File) (h : done.length + 1 < 2 ^ 31) :
    addFile (done ++ s :: rest) ((fileShape mf).fields (done.length + 1, f))
      = some (done ++ { s with nzb := { s.nzb with files := s.nzb.files ++ [f] }, hits := s.hits ++ [mf f != 0] } :: rest) := by
  unfold Shape.fields fileShape addFile
  dsimp only
  rw [onNzb_at done s rest _ h, Text.join_split, Text.join_split, bit_ne, bit_ne]

theorem foldAll_files (mn : Nzb → Bool) (mf : File → I32) (q : List Nzb) (done : List Seen) (hl : done.length + q.length < 2 ^ 31) :
    foldAll addFile ((allFiles (done.length + 1) q).map (fileShape mf).fields) (done ++ q.map (seen1 mn)) = some (done ++ q.map (seen mn mf)) := by
  induction q generalizing done with
  | nil => rfl
  | cons n q ih =>
    have hl' : done.length + 1 < 2 ^ 31 := by simp only [List.length_cons] at hl; omega
    simp only [allFiles, List.map_cons, List.map_append, List.map_map]
    rw [foldAll_append, foldAll_at addFile ((fileShape mf).fields ∘ fun p => (done.length + 1, p))
      (fun f s => { s with nzb := { s.nzb with files := s.nzb.files ++ [f] }, hits := s.hits ++ [mf f != 0] }) done _ (fun f s => addFile_at mf done s _ f hl')]
    rw [files_seen, Option.bind_some]
    have := ih (done ++ [seen mn mf n]) (by simp only [List.length_cons, List.length_append, List.length_nil] at hl ⊢; omega)
    simpa [List.length_append, List.append_assoc] using this

theorem mem_allParams {i : Nat} {q : List Nzb} {p : Nat × (Bytes × Bytes)} (h : p ∈ allParams i q) : ∃ n ∈ q, p.2 ∈ n.params := by
  induction q generalizing i with
  | nil => cases h
  | cons n q ih =>
    simp only [allParams, List.mem_append, List.mem_map] at h
    cases h with
    | inl h => obtain ⟨x, hx, rfl⟩ := h; exact ⟨n, List.mem_cons_self, hx⟩
    | inr h => obtain ⟨m, hm, e⟩ := ih h; exact ⟨m, List.mem_cons_of_mem _ hm, e⟩
theorem mem_allFiles {i : Nat} {q : List Nzb} {p : Nat × File} (h : p ∈ allFiles i q) : ∃ n ∈ q, p.2 ∈ n.files := by
  induction q generalizing i with
  | nil => cases h
  | cons n q ih =>
    simp only [allFiles, List.mem_append, List.mem_map] at h
    cases h with
    | inl h => obtain ⟨x, hx, rfl⟩ := h; exact ⟨n, List.mem_cons_self, hx⟩
    | inr h => obtain ⟨m, hm, e⟩ := ih h; exact ⟨m, List.mem_cons_of_mem _ hm, e⟩

theorem length_le_sum {α : Type} (f : α → Nat) (l : List α) (h : ∀ a ∈ l, 4 ≤ f a) : l.length ≤ (l.map f).sum := by
  induction l with
  | nil => exact Nat.le_refl _
  | cons a l ih =>
    have := h a List.mem_cons_self
    have := ih (fun b hb => h b (List.mem_cons_of_mem _ hb))
    simp only [List.map_cons, List.sum_cons, List.length_cons]; omega

/-- There are not more entries than bytes. -/
theorem count_le {α : Type} (s : Shape α) (l : List α) (buf : Bytes) (h : buf.length % 4 = 0) (hp : ∀ a, (s.texts a).length ≠ 0) :
    l.length + buf.length ≤ (writeMany s.write l buf).length := by
  rw [writeMany_length _ _ _ h]
  have := length_le_sum (fun a => align (s.raw a)) l (fun a _ => by
    have e : s.raw a ≤ align (s.raw a) := align_ge _
    have : 4 ≤ s.raw a := by have := hp a; unfold Shape.raw; omega
    omega)
  omega

theorem listData_parts (mn : Nzb → Bool) (mf : File → I32) (q : List Nzb) (hq : ∀ n ∈ q, Sound n) (hl : (listData mn mf q).length < 2 ^ 31) :
    ∃ a b c, listData mn mf q = a ++ (b ++ c)
      ∧ (∀ r, readMany 12 5 0 q.length (a ++ r) = some (q.map (nzbShape mn).fields, r))
      ∧ (∀ r, readMany 1 2 0 (allParams 1 q).length (b ++ r) = some ((allParams 1 q).map paramShape.fields, r))
      ∧ (∀ r, readMany 10 2 0 (allFiles 1 q).length (c ++ r) = some ((allFiles 1 q).map (fileShape mf).fields, r))
      ∧ q.length < 2 ^ 31 ∧ (allParams 1 q).length < 2 ^ 31 ∧ (allFiles 1 q).length < 2 ^ 31 := by
  have m0 : (([] : Bytes)).length % 4 = 0 := rfl
  have m1 := writeMany_mod (nzbShape mn) q [] m0
  have m2 := writeMany_mod paramShape (allParams 1 q) _ m1
  have c1 := count_le (nzbShape mn) q [] m0 (fun a => by simp [nzbShape])
  have c2 := count_le paramShape (allParams 1 q) _ m1 (fun a => by simp [paramShape])
  have c3 := count_le (fileShape mf) (allFiles 1 q) _ m2 (fun a => by simp [fileShape])
  unfold listData at hl ⊢
  rw [nzb_write, param_write, file_write] at hl ⊢
  obtain ⟨a, ea, ha⟩ := writeMany_read (nzbShape mn) 12 5 0 q [] (fun _ _ => rfl) (fun _ _ => rfl) (fun _ _ => rfl) (by omega)
    (fun n hn t ht => (hq n hn).texts t ht) (by omega)
  obtain ⟨b, eb, hb⟩ := writeMany_read paramShape 1 2 0 (allParams 1 q) _ (fun _ _ => rfl) (fun _ _ => rfl) (fun _ _ => rfl) (by omega)
    (fun p hp t ht => by
      obtain ⟨n, hn, e⟩ := mem_allParams hp
      have := (hq n hn).params _ e
      simp only [paramShape, List.mem_cons, List.not_mem_nil, or_false] at ht
      cases ht with
      | inl h => rw [h]; exact this.1
      | inr h => rw [h]; exact this.2) (by omega : (writeMany paramShape.write (allParams 1 q) (writeMany (nzbShape mn).write q [])).length < 2 ^ 32)
  obtain ⟨c, ec, hc⟩ := writeMany_read (fileShape mf) 10 2 0 (allFiles 1 q) _ (fun _ _ => rfl) (fun _ _ => rfl) (fun _ _ => rfl) (by omega)
    (fun p hp t ht => by
      obtain ⟨n, hn, e⟩ := mem_allFiles hp
      have := (hq n hn).files _ e
      simp only [fileShape, List.mem_cons, List.not_mem_nil, or_false] at ht
      cases ht with
      | inl h => rw [h]; exact this.1
      | inr h => rw [h]; exact this.2)
    (by omega : (writeMany (fileShape mf).write (allFiles 1 q) (writeMany paramShape.write (allParams 1 q) (writeMany (nzbShape mn).write q []))).length < 2 ^ 32)
  refine ⟨a, b, c, ?_, ha, hb, hc, by omega, by omega, by omega⟩
  rw [ec, eb, ea, List.nil_append, List.append_assoc]

theorem buildList_eq (mn : Nzb → Bool) (mf : File → I32) (q : List Nzb) (hq : ∀ n ∈ q, Sound n) (hl : listSize q < 2 ^ 31) :
    buildList (BitVec.ofNat 32 q.length) (BitVec.ofNat 32 (allParams 1 q).length) (BitVec.ofNat 32 (allFiles 1 q).length) (BitVec.ofNat 32 (listSize q)) (listData mn mf q)
      = some (q.map (seen mn mf)) := by
  obtain ⟨a, b, c, e, ha, hb, hc, l1, l2, l3⟩ := listData_parts mn mf q hq (by rw [list_size]; exact hl)
  unfold buildList
  by_cases hz : BitVec.ofNat 32 (listSize q) = 0
  · rw [if_pos hz]
    have z : listSize q = 0 := by
      have := congrArg BitVec.toNat hz
      rw [toNat_small _ hl] at this; exact this
    have c1 := count_le (nzbShape mn) q [] rfl (fun a => by simp [nzbShape])
    have c2 := count_le paramShape (allParams 1 q) _ (writeMany_mod (nzbShape mn) q [] rfl) (fun a => by simp [paramShape])
    have c3 := count_le (fileShape mf) (allFiles 1 q) _ (writeMany_mod paramShape (allParams 1 q) _ (writeMany_mod (nzbShape mn) q [] rfl)) (fun a => by simp [fileShape])
    have d := list_size mn mf q
    unfold listData at d
    rw [nzb_write, param_write, file_write] at d
    have : q.length = 0 := by omega
    rw [List.length_eq_zero_iff.1 this]; rfl
  · rw [if_neg hz, toNat_small _ l1, toNat_small _ l2, toNat_small _ l3, e, ha]
    dsimp only
    rw [foldAll_nzb mn q [], List.nil_append]
    dsimp only
    rw [hb]
    dsimp only
    have p := foldAll_params mn q hq [] (by simpa using l1)
    simp only [List.length_nil, Nat.zero_add, List.nil_append] at p
    rw [p]
    dsimp only
    have h := hc []
    rw [List.append_nil] at h
    rw [h]
    dsimp only
    have f := foldAll_files mn mf q [] (by simpa using l1)
    simp only [List.length_nil, Nat.zero_add, List.nil_append] at f
    rw [f]

/-- How the header of the list is read. -/
theorem receiveList_eq (s r : Bytes) (st : State) (valid : Bool) (q : List Nzb) (n : Nat) (h : readWords 23 s = some (listHeader st valid q n, r)) :
    receiveList s = match recv (BitVec.ofNat 32 n).toNat r with
      | none => none
      | some (buf, _) =>
        match buildList (BitVec.ofNat 32 q.length) (BitVec.ofNat 32 (allParams 1 q).length) (BitVec.ofNat 32 (allFiles 1 q).length) (BitVec.ofNat 32 n) buf with
        | none => none
        | some q => some (st, valid, q) := by
  unfold receiveList
  rw [h]
  unfold listHeader
  dsimp only
  rw [if_neg (by simp)]
  simp only [Text.join_split, bit_ne]
  have v : ((if valid = true then (0x01000000 : I32) else 0) != 0) = valid := by cases valid <;> rfl
  rw [v]
  rfl

/-- The client gets the whole queue as the server has it, with the state of the program, and nothing else. -/
theorem list_received (st : State) (valid : Bool) (mn : Nzb → Bool) (mf : File → I32) (q : List Nzb) (hq : ∀ n ∈ q, Sound n) (hl : listSize q < 2 ^ 31) (rest : Bytes) :
    receiveList (sendList st valid mn mf q ++ rest) = some (st, valid, q.map (seen mn mf)) := by
  have e : readWords 23 (sendList st valid mn mf q ++ rest) = some (listHeader st valid q (listSize q), listData mn mf q ++ rest) := by
    unfold sendList
    rw [List.append_assoc, readWords_len 23 _ _ rfl, List.take_of_length_le (by rw [list_size]; exact Nat.le_refl _)]
  rw [receiveList_eq _ _ _ _ _ _ e, toNat_small _ hl, recv_len _ (list_size mn mf q)]
  dsimp only
  rw [buildList_eq mn mf q hq hl]

theorem readWords_short (n : Nat) (b : Bytes) (h : b.length < 4 * n) : readWords n b = none := by
  induction n generalizing b with
  | zero => omega
  | succ n ih =>
    simp only [readWords]
    by_cases hb : b.length < 4
    · rw [if_pos hb]
    · rw [if_neg hb, ih (b.drop 4) (by rw [List.length_drop]; omega)]

/-- An answer which was cut off anywhere is not taken for a shorter queue. -/
theorem list_truncated (st : State) (valid : Bool) (mn : Nzb → Bool) (mf : File → I32) (q : List Nzb) (hl : listSize q < 2 ^ 31) (k : Nat)
    (hk : k < (sendList st valid mn mf q).length) : receiveList ((sendList st valid mn mf q).take k) = none := by
  have d : (listData mn mf q).take (listSize q) = listData mn mf q := List.take_of_length_le (by rw [list_size]; exact Nat.le_refl _)
  unfold sendList at hk ⊢
  rw [d] at hk ⊢
  rw [List.length_append, wordsB_length, list_size] at hk
  have h23 : (listHeader st valid q (listSize q)).length = 23 := rfl
  by_cases h : k < 92
  · unfold receiveList
    rw [readWords_short 23 _ (by rw [List.length_take]; omega)]
  · have e : readWords 23 ((wordsB (listHeader st valid q (listSize q)) ++ listData mn mf q).take k)
        = some (listHeader st valid q (listSize q), (listData mn mf q).take (k - 92)) := by
      rw [List.take_append, List.take_of_length_le (by rw [wordsB_length, h23]; omega), wordsB_length, h23]
      exact readWords_len 23 _ _ rfl
    rw [receiveList_eq _ _ _ _ _ _ e, toNat_small _ hl]
    have : recv (listSize q) ((listData mn mf q).take (k - 92)) = none := by
      unfold recv
      rw [if_neg (by rw [List.length_take]; omega)]
    rw [this]

/-- A queue with two groups, parameters and files. -/
def sampleQueue : List Nzb :=
  [⟨1, 0, 5000000000, 4000000000, 7, 1, 2, -50, lit "a.nzb", lit "A", lit "/dst/A", lit "tv", lit "a.nzb.queued", [(lit "*unpack:", lit "yes"), (lit "X", lit "1")],
      [⟨10, 100, 50, true, false, 2, lit "subject", lit "a.rar"⟩, ⟨11, 4294967296, 0, false, true, 0, [], lit "b.rar"⟩]⟩,
   ⟨2, 1, 0, 0, 0, 0, 0, 100, lit "u", lit "B", [], [], [], [], [⟨12, 1, 1, false, false, 0, lit "s", lit "c"⟩]⟩]

def sampleState : State := ⟨9000000000, 1000, 0, false, true, false, true, 5, 1, 60, 30, 123456789012⟩

example : ∀ n ∈ sampleQueue, Sound n := by
  intro n hn
  simp only [sampleQueue, List.mem_cons, List.not_mem_nil, or_false] at hn
  cases hn with
  | inl h => subst h; exact ⟨by unfold Plain; decide +kernel, by unfold Plain; decide +kernel, by decide +kernel, by decide +kernel, by unfold Plain; decide +kernel⟩
  | inr h => subst h; exact ⟨by unfold Plain; decide +kernel, by unfold Plain; decide +kernel, by decide +kernel, by decide +kernel, by unfold Plain; decide +kernel⟩
example : listSize sampleQueue < 2 ^ 31 := by decide +kernel
example : receiveList (sendList sampleState true (fun n => n.id == 1) (fun f => f.id) sampleQueue)
    = some (sampleState, true, sampleQueue.map (seen (fun n => n.id == 1) (fun f => f.id))) := by decide +kernel
example : receiveList ((sendList sampleState true (fun n => n.id == 1) (fun f => f.id) sampleQueue).take 300) = none := by decide +kernel

/-! ### Post-processing and history -/

theorem receiveMany_eq {α : Type} (s : Shape α) (np nt nq : Nat) (l : List α) (n : Nat) (size : I32) (hn : (writeMany s.write l []).length = n) (hl : n < 2 ^ 31)
    (h1 : ∀ a ∈ l, (s.pre a).length = np) (h2 : ∀ a, (s.texts a).length = nt)
    (h3 : ∀ a ∈ l, (s.post a).length = nq) (hnt : nt ≠ 0) (hp : ∀ a ∈ l, ∀ t ∈ s.texts a, Plain t) (rest : Bytes) :
    receiveMany np nt nq (wordsB [signature, 20, size, BitVec.ofNat 32 l.length, BitVec.ofNat 32 n] ++ (writeMany s.write l []).take n ++ rest) = some (l.map s.fields) := by
  have c1 := count_le s l [] rfl (fun a => by rw [h2]; exact hnt)
  rw [hn, List.length_nil] at c1
  obtain ⟨d, ed, hd⟩ := writeMany_read s np nt nq l [] h1 (fun a _ => h2 a) h3 hnt hp (by rw [hn]; omega)
  rw [List.nil_append] at ed
  have hd' := hd []
  rw [List.append_nil] at hd'
  rw [List.take_of_length_le (by rw [hn]; exact Nat.le_refl _), ed]
  rw [ed] at hn
  unfold receiveMany
  rw [List.append_assoc, readWords_len 5 _ _ rfl]
  dsimp only
  rw [if_neg (by simp)]
  by_cases hz : BitVec.ofNat 32 n = 0
  · rw [if_pos hz]
    have z : n = 0 := by
      have := congrArg BitVec.toNat hz
      rw [toNat_small _ hl] at this; exact this
    have : l.length = 0 := by omega
    rw [List.length_eq_zero_iff.1 this]; rfl
  · rw [if_neg hz, toNat_small _ hl, toNat_small _ (by omega : l.length < 2 ^ 31), recv_len _ hn]
    dsimp only
    rw [hd']; rfl

theorem receiveMany_short (np nt nq : Nat) (size : I32) (m n : Nat) (d : Bytes) (hl : n < 2 ^ 31) (hd : d.length = n) (k : Nat) (hk : k < 20 + n) :
    receiveMany np nt nq ((wordsB [signature, 20, size, BitVec.ofNat 32 m, BitVec.ofNat 32 n] ++ d).take k) = none := by
  unfold receiveMany
  by_cases h : k < 20
  · rw [readWords_short 5 _ (by rw [List.length_take]; omega)]
  · rw [List.take_append, List.take_of_length_le (by rw [wordsB_length]; exact Nat.le_of_not_lt h), wordsB_length]
    rw [readWords_len 5 _ _ rfl]
    dsimp only [List.length_cons, List.length_nil]
    rw [if_neg (by simp)]
    have nz : BitVec.ofNat 32 n ≠ 0 := by
      intro hz
      have := congrArg BitVec.toNat hz
      rw [toNat_small _ hl] at this
      have : n = 0 := this
      omega
    rw [if_neg nz, toNat_small _ hl]
    have : ∀ j, j < n → recv n (d.take j) = none := fun j hj => by
      unfold recv
      rw [if_neg (by rw [List.length_take]; omega)]
    rw [this _ (by omega)]

def postShape : Shape Post :=
  ⟨fun p => [p.id, p.stage, p.stageProgress, p.fileProgress, p.totalTime, p.stageTime], fun p => [p.filename, p.name, p.destDir, p.label], fun _ => []⟩

/-- The jobs fill exactly the buffer reserved for them. -/
theorem post_size (q : List Post) : (writeMany postEntry q []).length = postSize q := by
  show (writeMany postShape.write q []).length = _
  rw [writeMany_length _ _ _ rfl]
  unfold postSize
  rw [foldl_align (fun p : Post => 40 + (p.filename.length + 1) + (p.name.length + 1) + (p.destDir.length + 1) + (p.label.length + 1)) _ _ rfl, List.length_nil]
  congr 2
  refine List.map_congr_left (fun p _ => ?_)
  congr 1
  simp only [Shape.raw, postShape, textsB, List.flatMap_cons, List.flatMap_nil, List.length_append, List.length_cons, List.length_nil]; omega

/-- PostInfo::EStage (DownloadInfo.h:762-776) in words. -/
inductive Stage where
  | queued | loadingPars | verifyingSources | repairing | verifyingRepaired | parRenaming | rarRenaming | unpacking | cleaningUp | moving | executingScript | finished

def Stage.code : Stage → I32
  | .queued => 0 | .loadingPars => 1 | .verifyingSources => 2 | .repairing => 3 | .verifyingRepaired => 4 | .parRenaming => 5 | .rarRenaming => 6
  | .unpacking => 7 | .cleaningUp => 8 | .moving => 9 | .executingScript => 10 | .finished => 11

def Stage.text : Stage → String
  | .queued => "" | .loadingPars => ", Loading Pars" | .verifyingSources => ", Verifying source files" | .repairing => ", Repairing"
  | .verifyingRepaired => ", Verifying repaired files" | .parRenaming => ", Par-Renaming" | .rarRenaming => ", Rar-Renaming"
  | .unpacking => ", Unpacking" | .cleaningUp => ", Cleaning up" | .moving => ", Moving" | .executingScript => ", Executing postprocess-script" | .finished => ""

def Stage.isScript : Stage → Bool
  | .executingScript => true
  | _ => false

theorem mapM_map {α β γ : Type} (f : β → Option γ) (g : α → β) (h : α → γ) (l : List α) (e : ∀ a ∈ l, f (g a) = some (h a)) : (l.map g).mapM f = some (l.map h) := by
  induction l with
  | nil => rfl
  | cons a l ih =>
    simp only [List.map_cons, List.mapM_cons]
    rw [e a List.mem_cons_self, ih (fun b hb => e b (List.mem_cons_of_mem _ hb))]
    rfl

/-- The client shows each job in post-processing with its number, name, stage and progress, in the order of the queue. -/
theorem post_received (q : List Post) (stage : Post → Stage) (hs : ∀ p ∈ q, p.stage = (stage p).code)
    (hp : ∀ p ∈ q, Plain p.filename ∧ Plain p.name ∧ Plain p.destDir ∧ Plain p.label) (hl : postSize q < 2 ^ 31) (rest : Bytes) :
    receivePost (sendPost q ++ rest) = some (q.map (fun p => (p.id, p.name, (stage p).text,
      if p.stageProgress.toInt > 0 ∧ (stage p).isScript = false then some (p.stageProgress.toInt / 10) else none))) := by
  have e : receiveMany 6 4 0 (sendPost q ++ rest) = some (q.map postShape.fields) := by
    have := receiveMany_eq postShape 6 4 0 q (postSize q) 40 (post_size q) hl (fun _ _ => rfl) (fun _ => rfl) (fun _ _ => rfl) (by omega)
      (fun p h t ht => by
        have k := hp p h
        simp only [postShape, List.mem_cons, List.not_mem_nil, or_false] at ht
        rcases ht with h | h | h | h <;> rw [h]
        · exact k.1
        · exact k.2.1
        · exact k.2.2.1
        · exact k.2.2.2) rest
    exact this
  unfold receivePost
  rw [e, Option.bind_some]
  refine mapM_map _ _ _ _ (fun p h => ?_)
  unfold Shape.fields postShape postLine
  dsimp only
  rw [hs p h]
  cases stage p <;> simp [Stage.code, Stage.text, Stage.isScript, stageText]

/-- An answer which was cut off is not taken for a shorter list. -/
theorem post_truncated (q : List Post) (hl : postSize q < 2 ^ 31) (k : Nat) (hk : k < (sendPost q).length) : receivePost ((sendPost q).take k) = none := by
  have d : (writeMany postEntry q []).take (postSize q) = writeMany postEntry q [] := List.take_of_length_le (by rw [post_size]; exact Nat.le_refl _)
  unfold sendPost at hk ⊢
  rw [d] at hk ⊢
  rw [List.length_append, wordsB_length, post_size] at hk
  unfold receivePost
  rw [receiveMany_short _ _ _ _ _ _ _ hl (post_size q) _ hk]
  rfl

def samplePosts : List Post :=
  [⟨3, 2, 345, 10, 5, 4, lit "a.nzb", lit "A", lit "/d", lit "Verifying"⟩, ⟨4, 10, 500, 0, 50, 40, lit "b", lit "Bb", [], []⟩, ⟨5, 0, 0, 0, 0, 0, [], lit "C", [], []⟩]
example : receivePost (sendPost samplePosts) = some [(3, lit "A", ", Verifying source files", some 34), (4, lit "Bb", ", Executing postprocess-script", none), (5, lit "C", "", none)] := by
  decide +kernel

/-! ### The history -/

def histShape (junk : Nat → I32) : Shape Hist :=
  ⟨fun h => match h.item with | .nzb _ _ _ _ => [h.id, 1, h.time] | .url _ => [h.id, 2, h.time] | .dup _ => [h.id, 3, h.time],
   fun h => [h.name],
   fun h => match h.item with
    | .nzb size files par script => [splitLo size, splitHi size, files, par, script, junk 0]
    | .url status => [junk 1, junk 2, junk 3, junk 4, junk 5, status]
    | .dup size => [splitLo size, splitHi size, junk 6, junk 7, junk 8, junk 9]⟩

theorem hist_write (junk : Nat → I32) : histEntry junk = (histShape junk).write := by
  funext pos h
  unfold histEntry Shape.write histShape
  dsimp only
  cases h.item <;> rfl

theorem hist_pre (junk : Nat → I32) (h : Hist) : ((histShape junk).pre h).length = 3 := by
  unfold histShape; dsimp only; cases h.item <;> rfl
theorem hist_post (junk : Nat → I32) (h : Hist) : ((histShape junk).post h).length = 6 := by
  unfold histShape; dsimp only; cases h.item <;> rfl

/-- The items fill exactly the buffer reserved for them. -/
theorem hist_size (junk : Nat → I32) (q : List Hist) : (writeMany (histEntry junk) q []).length = histSize q := by
  rw [hist_write, writeMany_length _ _ _ rfl]
  unfold histSize
  rw [foldl_align (fun h : Hist => h.name.length + 1) _ _ (by omega), List.length_nil]
  have : (fun a => align ((histShape junk).raw a)) = (fun a : Hist => 40 + align (a.name.length + 1)) := funext (fun a => by
    have : (histShape junk).raw a = 40 + (a.name.length + 1) := by
      unfold Shape.raw
      rw [hist_pre, hist_post]
      simp only [histShape, textsB, List.flatMap_cons, List.flatMap_nil, List.length_append, List.length_cons, List.length_nil]
    rw [this, align_add _ _ rfl])
  rw [this, sum_split (fun _ => 40), sum_const]; omega

/-- The statuses in words: NzbInfo::EParStatus (DownloadInfo.h:376-384), ScriptStatus::EStatus (323-328), NzbInfo::EUrlStatus (438-447). -/
inductive Par where | none | skipped | failure | success | repairPossible | manual
inductive Script where | none | failure | success
inductive Url where | none | running | finished | failed | retry | scanSkipped | scanFailed

def Par.code : Par → I32 | .none => 0 | .skipped => 1 | .failure => 2 | .success => 3 | .repairPossible => 4 | .manual => 5
def Script.code : Script → I32 | .none => 0 | .failure => 1 | .success => 2
def Url.code : Url → I32 | .none => 0 | .running => 1 | .finished => 2 | .failed => 3 | .retry => 4 | .scanSkipped => 5 | .scanFailed => 6

def Par.text : Par → String
  | .none => "" | .skipped => "" | .failure => ", Par failed" | .success => ", Par successful" | .repairPossible => ", Repair possible" | .manual => ", Repair needed"
/-- What should be shown of the scripts. -/
def Script.text : Script → String | .none => "" | .failure => ", Script failed" | .success => ", Script successful"
/-- What is shown of them. -/
def Script.shown : Script → String | .none => "" | .failure => ", Script status unknown" | .success => ", Script failed"
def Url.text : Url → String
  | .none => "" | .running => "" | .finished => "Url download successful" | .failed => "Url download failed" | .retry => "" | .scanSkipped => "Nzb scan skipped"
  | .scanFailed => "Nzb scan failed"

/-- An item of the history as the user knows it. -/
inductive What where
  | nzb (size : I64) (files : I32) (par : Par) (script : Script)
  | url (status : Url)
  | dup (size : I64)

structure Known where
  id : I32
  time : I32
  name : Bytes
  what : What

def Known.hist (k : Known) : Hist :=
  ⟨k.id, k.time, k.name, match k.what with | .nzb s f p c => .nzb s f p.code c.code | .url u => .url u.code | .dup s => .dup s⟩
def Known.hidden (k : Known) : Bool := match k.what with | .dup _ => true | _ => false
/-- The line for it, with `f` as the text for the scripts. -/
def Known.line (f : Script → String) (k : Known) : Line :=
  match k.what with
  | .nzb s n p c => .nzb k.id k.name n s p.text (f c)
  | .url u => .url k.id k.name u.text
  | .dup s => .dup k.id k.name s

theorem lineOf_eq (junk : Nat → I32) (k : Known) : lineOf ((histShape junk).fields k.hist) = some (k.line Script.shown) := by
  obtain ⟨id, time, name, what⟩ := k
  cases what with
  | nzb s n p c =>
    show (match parText[p.code.toNat]?, scriptText[c.code.toNat]? with
      | some p, some t => some (Line.nzb id name n (joinInt64 (splitHi s) (splitLo s)) p t)
      | _, _ => none) = _
    rw [Text.join_split]
    cases p <;> cases c <;> rfl
  | url u => cases u <;> rfl
  | dup s =>
    show some (Line.dup id name (joinInt64 (splitHi s) (splitLo s))) = _
    rw [Text.join_split]; rfl

theorem shown_map (hidden : Bool) (q : List Known) : shown hidden (q.map Known.hist) = (q.filter (fun k => !k.hidden || hidden)).map Known.hist := by
  unfold shown
  rw [List.filter_map]
  congr 1
  refine List.filter_congr (fun k _ => ?_)
  obtain ⟨id, time, name, what⟩ := k
  cases what <;> rfl

theorem history_lines (junk : Nat → I32) (hidden : Bool) (q : List Known) (hp : ∀ k ∈ q, Plain k.name) (hl : histSize (shown hidden (q.map Known.hist)) < 2 ^ 31) (rest : Bytes) :
    receiveHistory (sendHistory junk hidden (q.map Known.hist) ++ rest)
      = some ((q.filter (fun k => !k.hidden || hidden)).map (Known.line Script.shown)) := by
  rw [shown_map] at hl
  unfold receiveHistory sendHistory
  dsimp only
  rw [shown_map]
  generalize hf : q.filter (fun k => !k.hidden || hidden) = l at hl ⊢
  have hp' : ∀ k ∈ l, Plain k.name := fun k hk => hp k (by rw [← hf] at hk; exact (List.mem_filter.1 hk).1)
  have e := receiveMany_eq (histShape junk) 3 1 6 (l.map Known.hist) (histSize (l.map Known.hist)) 40 (by rw [← hist_write]; exact hist_size junk _) hl
    (fun a _ => hist_pre junk a) (fun _ => rfl) (fun a _ => hist_post junk a) (by omega)
    (fun a ha t ht => by
      obtain ⟨k, hk, rfl⟩ := List.mem_map.1 ha
      have : t = k.hist.name := by simpa [histShape] using ht
      rw [this]; exact hp' k hk) rest
  rw [hist_write, e, Option.bind_some, List.map_map]
  exact mapM_map _ _ _ _ (fun k _ => lineOf_eq junk k)

/-- The client shows each item of the history, hidden ones only if asked for, in the order of the server, with everything known of it, as long as no script was executed;
fields which were not set are never shown. Missing: items with executed scripts (see `script_shown`). -/
theorem history_received_partial (junk : Nat → I32) (hidden : Bool) (q : List Known) (hp : ∀ k ∈ q, Plain k.name) (hl : histSize (shown hidden (q.map Known.hist)) < 2 ^ 31)
    (hs : ∀ k ∈ q, ∀ s f p c, k.what = .nzb s f p c → c = .none) (rest : Bytes) :
    receiveHistory (sendHistory junk hidden (q.map Known.hist) ++ rest)
      = some ((q.filter (fun k => !k.hidden || hidden)).map (Known.line Script.text)) := by
  rw [history_lines junk hidden q hp hl rest]
  congr 1
  refine List.map_congr_left (fun k hk => ?_)
  have h := hs k (List.mem_filter.1 hk).1
  obtain ⟨id, time, name, what⟩ := k
  cases what with
  | nzb s f p c => rw [h s f p c rfl]; rfl
  | url u => rfl
  | dup s => rfl

/-- An item whose scripts were successful is shown as failed, one whose scripts failed as unknown, whatever else is in the history. -/
theorem script_shown (junk : Nat → I32) (hidden : Bool) (q : List Known) (hp : ∀ k ∈ q, Plain k.name) (hl : histSize (shown hidden (q.map Known.hist)) < 2 ^ 31) (rest : Bytes)
    (id time : I32) (name : Bytes) (size : I64) (files : I32) (par : Par) (script : Script) (hk : ⟨id, time, name, .nzb size files par script⟩ ∈ q) :
    ∃ l, receiveHistory (sendHistory junk hidden (q.map Known.hist) ++ rest) = some l
      ∧ (script = .success → .nzb id name files size par.text ", Script failed" ∈ l)
      ∧ (script = .failure → .nzb id name files size par.text ", Script status unknown" ∈ l) := by
  refine ⟨_, history_lines junk hidden q hp hl rest, ?_, ?_⟩
  · intro h; subst h
    exact List.mem_map.2 ⟨_, List.mem_filter.2 ⟨hk, rfl⟩, rfl⟩
  · intro h; subst h
    exact List.mem_map.2 ⟨_, List.mem_filter.2 ⟨hk, rfl⟩, rfl⟩

/-- An answer which was cut off is not taken for a shorter history. -/
theorem history_truncated (junk : Nat → I32) (hidden : Bool) (q : List Hist) (hl : histSize (shown hidden q) < 2 ^ 31) (k : Nat)
    (hk : k < (sendHistory junk hidden q).length) : receiveHistory ((sendHistory junk hidden q).take k) = none := by
  have d : (writeMany (histEntry junk) (shown hidden q) []).take (histSize (shown hidden q)) = writeMany (histEntry junk) (shown hidden q) [] :=
    List.take_of_length_le (by rw [hist_size]; exact Nat.le_refl _)
  unfold sendHistory at hk ⊢
  dsimp only at hk ⊢
  rw [d] at hk ⊢
  rw [List.length_append, wordsB_length, hist_size] at hk
  unfold receiveHistory
  rw [receiveMany_short _ _ _ _ _ _ _ hl (hist_size junk _) _ hk]
  rfl

def sampleHistory : List Known :=
  [⟨1, 1700000000, lit "A", .nzb 5000000000 20 .success .success⟩, ⟨2, 1700000001, lit "Bee", .dup 77⟩, ⟨3, 1700000002, lit "http", .url .scanFailed⟩,
   ⟨4, 1700000003, lit "D", .nzb 1 1 .failure .none⟩]
example : receiveHistory (sendHistory (fun n => BitVec.ofNat 32 (n + 1000)) false (sampleHistory.map Known.hist))
    = some [.nzb 1 (lit "A") 20 5000000000 ", Par successful" ", Script failed", .url 3 (lit "http") "Nzb scan failed", .nzb 4 (lit "D") 1 1 ", Par failed" ""] := by decide +kernel
example : histSize (shown true (sampleHistory.map Known.hist)) < 2 ^ 31 ∧ ∀ k ∈ sampleHistory, Plain k.name := ⟨by decide +kernel, by unfold Plain; decide +kernel⟩

/-! ### The log -/

def logShape : Shape MsgLog.Msg := ⟨fun m => [BitVec.ofNat 32 m.id, kindCode m.kind, BitVec.ofInt 32 m.time], fun m => [m.text], fun _ => []⟩

theorem align_int (n : Nat) : MsgLog.align n = (align n : Int) := by
  unfold MsgLog.align align
  split <;> split <;> omega

theorem written_int (l : List MsgLog.Msg) (n : Nat) :
    l.foldl (fun n m => MsgLog.align (n + 16 + (m.text.length + 1))) (n : Int) = ((l.foldl (fun n m => align (n + (16 + (m.text.length + 1)))) n : Nat) : Int) := by
  induction l generalizing n with
  | nil => rfl
  | cons m l ih =>
    simp only [List.foldl_cons]
    have : (n : Int) + 16 + ((m.text.length : Int) + 1) = ((n + (16 + (m.text.length + 1)) : Nat) : Int) := by omega
    rw [this, align_int, ih]

/-- The bytes of the messages, each padded to four bytes. -/
def logBytes (l : List MsgLog.Msg) : Nat := (l.map (fun m => align (16 + (m.text.length + 1)))).sum

theorem log_written (l : List MsgLog.Msg) : (writeMany logEntry l []).length = logBytes l := by
  show (writeMany logShape.write l []).length = _
  rw [writeMany_length _ _ _ rfl, List.length_nil, Nat.zero_add]
  unfold logBytes
  congr 1
  refine List.map_congr_left (fun m _ => ?_)
  congr 1
  simp only [Shape.raw, logShape, textsB, List.flatMap_cons, List.flatMap_nil, List.length_append, List.length_cons, List.length_nil]

/-- The messages fill exactly the buffer reserved for them. -/
theorem log_size (lines : Int) (idFrom : Nat) (msgs : List MsgLog.Msg) (hl : 0 ≤ lines) :
    ((writeMany logEntry (MsgLog.binQuery lines idFrom msgs).2 []).length : Int)
      = MsgLog.bufSize (MsgLog.binQuery lines idFrom msgs).1 (MsgLog.binQuery lines idFrom msgs).2 := by
  rw [← (MsgLog.binary_reply lines idFrom msgs hl).2, log_written]
  unfold MsgLog.written logBytes
  have := written_int (MsgLog.binQuery lines idFrom msgs).2 0
  rw [foldl_align (fun m : MsgLog.Msg => 16 + (m.text.length + 1)) _ _ rfl] at this
  rw [Nat.zero_add] at this
  exact this.symm

/-- The line for a message. -/
def kindText : MsgLog.Kind → String
  | .info => "[INFO] " | .warning => "[WARNING] " | .error => "[ERROR] " | .debug => "[DEBUG] " | .detail => "[DETAIL] "

/-- The client shows exactly the messages the server has chosen, in their order, each with its kind and text. -/
theorem log_received (lines : Int) (idFrom : Nat) (msgs : List MsgLog.Msg) (hl : 0 ≤ lines) (hp : ∀ m ∈ msgs, Plain m.text)
    (hs : logBytes msgs < 2 ^ 31) (rest : Bytes) :
    receiveLog (sendLog lines idFrom msgs ++ rest) = some ((MsgLog.binQuery lines idFrom msgs).2.map (fun m => (kindText m.kind, m.text))) := by
  have hc := (MsgLog.binary_reply lines idFrom msgs hl).1
  have hz := log_size lines idFrom msgs hl
  have hsub : ∃ k, (MsgLog.binQuery lines idFrom msgs).2 = msgs.drop k := by
    unfold MsgLog.binQuery
    dsimp only
    split
    · exact ⟨_, rfl⟩
    · split <;> exact ⟨_, rfl⟩
  unfold receiveLog sendLog
  dsimp only
  rw [← hz, hc]
  generalize (MsgLog.binQuery lines idFrom msgs).2 = l at hsub
  obtain ⟨k, rfl⟩ := hsub
  have hn : logBytes (msgs.drop k) ≤ logBytes msgs := by
    have : logBytes msgs = logBytes (msgs.take k) + logBytes (msgs.drop k) := by
      unfold logBytes
      rw [← List.sum_append, ← List.map_append, List.take_append_drop]
    omega
  have e := receiveMany_eq logShape 3 1 0 (msgs.drop k) (logBytes (msgs.drop k)) 16 (log_written _) (by omega) (fun _ _ => rfl) (fun _ => rfl) (fun _ _ => rfl) (by omega)
    (fun a ha t ht => by
      have : t = a.text := by simpa [logShape] using ht
      rw [this]; exact hp a (List.mem_of_mem_drop ha)) rest
  rw [log_written, Int.toNat_natCast, BitVec.ofInt_natCast, BitVec.ofInt_natCast]
  have e' : receiveMany 3 1 0 (wordsB [signature, 20, 16, BitVec.ofNat 32 (msgs.drop k).length, BitVec.ofNat 32 (logBytes (msgs.drop k))]
      ++ (writeMany logEntry (msgs.drop k) []).take (logBytes (msgs.drop k)) ++ rest) = some ((msgs.drop k).map logShape.fields) := e
  rw [e', Option.map_some, List.filterMap_map]
  congr 1
  generalize msgs.drop k = l
  induction l with
  | nil => rfl
  | cons m l ih =>
    have : (logLine ∘ logShape.fields) m = some (kindText m.kind, m.text) := by
      obtain ⟨i, kd, t, x⟩ := m
      cases kd <;> rfl
    rw [List.filterMap_cons, this]
    dsimp only
    rw [ih, List.map_cons]

/-- With a negative number of lines, which the command line accepts, the client does not get a log: the server announces a negative number of messages and sends none. -/
theorem negative_lines (lines : Int) (msgs : List MsgLog.Msg) (hl : lines < 0) (hi : -(2 ^ 27) < lines) : receiveLog (sendLog lines 0 msgs) = none := by
  have q : MsgLog.binQuery lines 0 msgs = (lines, []) := by
    unfold MsgLog.binQuery
    dsimp only
    rw [if_neg (by omega), if_neg (by omega)]
    cases msgs with
    | nil => rfl
    | cons m ms =>
      dsimp only
      rw [if_neg (by omega), Int.toNat_natCast, List.drop_length]
  have b : MsgLog.bufSize lines [] = lines * 16 := rfl
  unfold receiveLog sendLog
  rw [q]
  dsimp only
  rw [b]
  unfold receiveMany
  have t : (writeMany logEntry [] []).take (lines * 16).toNat = [] := by simp [writeMany]
  rw [t, readWords_len 5 _ _ rfl]
  dsimp only
  rw [if_neg (by simp)]
  have k : (BitVec.ofInt 32 (lines * 16)).toNat ≠ 0 := by
    rw [BitVec.toNat_ofInt]
    omega
  rw [if_neg (fun h => k (by rw [h]; rfl))]
  have : recv (BitVec.ofInt 32 (lines * 16)).toNat [] = none := by
    unfold recv
    rw [if_neg (by simp only [List.length_nil]; omega)]
  rw [this]
  rfl

def sampleLog : List MsgLog.Msg := [⟨5, .info, 1700000000, lit "one"⟩, ⟨6, .error, 1700000001, lit "second"⟩, ⟨7, .detail, 1700000002, []⟩]
example : receiveLog (sendLog 2 0 sampleLog) = some [("[ERROR] ", lit "second"), ("[DETAIL] ", [])] := by decide +kernel
example : (∀ m ∈ sampleLog, Plain m.text) ∧ logBytes sampleLog < 2 ^ 31 := ⟨by unfold Plain; decide +kernel, by decide +kernel⟩

end Verif.BinResp
