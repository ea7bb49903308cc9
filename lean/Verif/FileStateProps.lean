import Verif.FileState
import Verif.RecordProps
/-
Property C17: the progress of a partly downloaded file survives a restart; and the same for its article list.
-/
namespace Verif.FileState
open Verif.Text Verif.Record

/-! ### Article list -/

structure ValidInfo (f : Info) : Prop where
  subject : FitsShort f.subject
  filename : FitsShort f.filename
  origname : FitsShort f.origname
  time : Time32 f.time
  groups : ∀ g ∈ f.groups, FitsShort g
  articles : ∀ a ∈ f.articles, FitsShort a.messageId
  counts : f.groups.length < 2 ^ 31 ∧ f.articles.length < 2 ^ 31

theorem fitsShort_le {s : Bytes} (h : FitsShort s) : s.length + 2 ≤ 1024 := by have := h.2; omega

theorem loadInfo_file (f : Info) (rest : Bytes) (h : ValidInfo f) :
    loadInfo (file (saveInfo f) rest) = some ((f, f.size - f.missedSize), rest) := by
  simp only [loadInfo, saveInfo, List.cons_append, List.nil_append, halves]
  rw [readLine_file _ _ _ _ h.subject.1 (fitsShort_le h.subject)]
  simp only [bind, Option.bind_some]
  rw [readLine_file _ _ _ _ h.filename.1 (fitsShort_le h.filename)]
  simp only [Option.bind_some]
  rw [readLine_file _ _ _ _ h.origname.1 (fitsShort_le h.origname)]
  simp only [Option.bind_some]
  rw [scanLine_file [.i, .i] _ _ _ rfl (by simp)]
  simp only [List.map_cons, List.map_nil, Option.bind_some]
  rw [scanLine_file [.u, .u] _ _ _ rfl (by simp)]
  simp only [List.map_cons, List.map_nil, Option.bind_some]
  rw [scanLine_file [.u, .u] _ _ _ rfl (by simp)]
  simp only [List.map_cons, List.map_nil, Option.bind_some]
  rw [scanLine_file [.i] _ _ _ rfl (by simp)]
  simp only [List.map_cons, List.map_nil, Option.bind_some]
  rw [scanLine_file [.i, .i] _ _ _ rfl (by simp)]
  simp only [List.map_cons, List.map_nil, Option.bind_some]
  have hg := readList_file (readLine 1024) (fun g => [g]) id f.groups
    (countLine f.articles.length :: f.articles.flatMap saveArticle) rest h.counts.1
    (fun g hg ls => readLine_file _ _ _ _ (h.groups g hg).1 (fitsShort_le (h.groups g hg)))
  have e : f.groups.flatMap (fun g => [g]) = f.groups := by
    rw [← map_eq_flatMap (fun g => g)]; simp
  rw [e] at hg
  rw [hg]
  simp only [Option.bind_some]
  have ha := readList_file loadArticle saveArticle id f.articles [] rest h.counts.2 (by
    intro a ha ls
    simp only [loadArticle, saveArticle, List.cons_append, List.nil_append]
    rw [scanLine_file [.i, .i] _ _ _ rfl (by simp)]
    simp only [List.map_cons, List.map_nil, bind, Option.bind_some]
    rw [readLine_file _ _ _ _ (h.articles a ha).1 (fitsShort_le (h.articles a ha))]
    rfl)
  rw [List.append_nil] at ha
  rw [ha]
  simp only [Option.bind_some, List.map_id, join_split, toBool_ofBool, time_roundtrip _ h.time.1 h.time.2, file_nil]

/-- The article list of every file comes back (with texts which fit the buffers and times before 2038), and the
remaining size is the size without the missing articles. -/
theorem article_list_roundtrip (f : Info) (b rest : Bytes) (h : ValidInfo f) (hb : printLines (saveInfo f) = some b) :
    loadInfo (b ++ rest) = some ((f, f.size - f.missedSize), rest) := by
  rw [(printLines_some _ _ hb).2 rest]
  exact loadInfo_file f rest h

/-! ### Progress -/

structure ValidState (s : State) : Prop where
  filename : FitsShort s.filename
  hash16k : FitsShort s.hash16k
  parSetId : FitsShort s.parSetId
  servers : s.stats.Pairwise (fun s t => s.server ≠ t.server)
  counts : s.stats.length < 2 ^ 31 ∧ s.parts.length < 2 ^ 31

/-- The article is finished or failed. -/
def Done (p : Part) : Prop := p.status ≠ aiUndefined ∧ p.status ≠ aiRunning
instance (p : Part) : Decidable (Done p) := inferInstanceAs (Decidable (_ ∧ _))

theorem halves_split (x : I64) : halves x = [(.u, splitHi x), (.u, splitLo x)] := rfl

theorem loadHead_file (servers : List (I32 × I32)) (s : State) (rest : Bytes)
    (h : ValidState s) (hs : SameServers servers s.stats) :
    loadHead servers (file (saveState s) rest) =
      some (({ s with parts := [] }, s.parts.length), file (s.parts.map savePart) rest) := by
  simp only [loadHead, saveState, List.cons_append, List.nil_append, halves_split, List.append_assoc]
  rw [scanLine_file [.i, .i] _ _ _ rfl (by simp)]
  simp only [List.map_cons, List.map_nil, bind, Option.bind_some]
  rw [scanLine_file [.u, .u, .u, .u, .u, .u] _ _ _ rfl (by simp)]
  simp only [List.map_cons, List.map_nil, Option.bind_some]
  rw [readLine_file _ _ _ _ h.filename.1 (fitsShort_le h.filename)]
  simp only [Option.bind_some]
  rw [readLine_file _ _ _ _ h.hash16k.1 (fitsShort_le h.hash16k)]
  simp only [Option.bind_some]
  rw [readLine_file _ _ _ _ h.parSetId.1 (fitsShort_le h.parSetId)]
  simp only [Option.bind_some]
  rw [scanLine_file [.i] _ _ _ rfl (by simp)]
  simp only [List.map_cons, List.map_nil, Option.bind_some]
  rw [loadStats_file servers s.stats _ rest h.counts.1 hs h.servers]
  simp only [Option.bind_some, countLine]
  rw [scanLine_file [.i] _ _ _ rfl (by simp)]
  have : (BitVec.ofNat 32 s.parts.length).toInt.toNat = s.parts.length := by
    have := h.counts.2
    rw [BitVec.toInt_ofNat', Int.bmod_def]; omega
  simp only [List.map_cons, List.map_nil, Option.bind_some, join_split, toBool_ofBool, this]

/-- What the loop gives for the articles `ps`, when `done` of the `size` articles before them are done. -/
def restored (completed : Bool) (size : Nat) : Nat → List Part → List Part
  | _, [] => []
  | done, p :: ps =>
    let status := if (done + 1 = size ∧ completed = false) ∨ p.status = aiRunning then aiUndefined else p.status
    { p with status, segmentOffset := (p.segmentOffset.setWidth 32).setWidth 64 } ::
      restored completed size (if status ≠ aiUndefined then done + 1 else done) ps

theorem loadParts_file (present : Option Nat) (size : Nat) (completed : Bool) (rest : Bytes) (ps : List Part)
    (i done : Nat) (hp : ∀ k, present = some k → i + ps.length ≤ k) :
    loadParts present size completed ps.length i done (file (ps.map savePart) rest) =
      .ok (restored completed size done ps,
        done + ((restored completed size done ps).filter (fun p => p.status ≠ aiUndefined)).length, rest) := by
  induction ps generalizing i done with
  | nil => simp [loadParts, restored, file_nil]
  | cons p ps ih =>
    have hk : beyond present i = false := by
      cases hpr : present with
      | none => rfl
      | some k => have := hp k hpr; simp [beyond] at this ⊢; omega
    simp only [List.length_cons, List.map_cons, loadParts, hk, savePart]
    rw [scanLine_file [.i, .u, .i, .u] _ _ _ rfl (by simp)]
    simp only [List.map_cons, List.map_nil]
    have hst : statusOf p.status (decide ((done : Int) = (size : Int) - 1) && !completed) =
        if (done + 1 = size ∧ completed = false) ∨ p.status = aiRunning then aiUndefined else p.status := by
      have hd : ((done : Int) = (size : Int) - 1) ↔ done + 1 = size := by omega
      unfold statusOf
      by_cases h1 : done + 1 = size ∧ completed = false
      · simp [h1, hd]
      · have : (decide ((done : Int) = (size : Int) - 1) && !completed) = false := by
          cases completed <;> simp_all
        by_cases h2 : p.status = aiRunning <;> simp [h1, h2, this]
    have e := ih (i + 1) (if (if (done + 1 = size ∧ completed = false) ∨ p.status = aiRunning then aiUndefined else p.status) ≠ aiUndefined
      then done + 1 else done) (by intro k hk; have := hp k hk; simp at this; omega)
    simp only [hst, restored]
    simp only [Bool.false_eq_true, if_false]
    rw [e]
    simp only [List.filter_cons, Outcome.ok.injEq, Prod.mk.injEq, and_true, true_and]
    generalize (if (done + 1 = size ∧ completed = false) ∨ p.status = aiRunning then aiUndefined else p.status) = st
    by_cases hs : st = aiUndefined
    · simp [hs]
    · simp [hs]; omega

theorem loadState_file (servers : List (I32 × I32)) (present : Option Nat) (completed : Bool) (s : State) (rest : Bytes)
    (h : ValidState s) (hs : SameServers servers s.stats) (hp : ∀ k, present = some k → s.parts.length ≤ k) :
    loadState servers present completed (file (saveState s) rest) =
      .ok ({ s with parts := restored completed s.parts.length 0 s.parts },
        ((restored completed s.parts.length 0 s.parts).filter (fun p => p.status ≠ aiUndefined)).length) := by
  simp only [loadState, loadHead_file servers s rest h hs]
  rw [loadParts_file present _ completed rest s.parts 0 0 (by intro k hk; have := hp k hk; omega)]
  simp

/-! Properties of `restored`, to state the result without it. -/

theorem length_restored (completed : Bool) (size done : Nat) (ps : List Part) :
    (restored completed size done ps).length = ps.length := by
  induction ps generalizing done with
  | nil => rfl
  | cons p ps ih => simp [restored, ih]

theorem restored_data (completed : Bool) (size done : Nat) (ps : List Part) :
    (restored completed size done ps).map (fun p => (p.segmentOffset, p.segmentSize, p.crc)) =
      ps.map (fun p => ((p.segmentOffset.setWidth 32).setWidth 64, p.segmentSize, p.crc)) := by
  induction ps generalizing done with
  | nil => rfl
  | cons p ps ih => simp [restored, ih]

/-- The status that an article should have after loading. -/
def wanted (p : Part) : I32 := if Done p then p.status else aiUndefined

theorem done_eq (p : Part) : (if p.status = aiRunning then aiUndefined else p.status) = wanted p := by
  unfold wanted Done
  by_cases h : p.status = aiRunning
  · simp [h]
  · by_cases h2 : p.status = aiUndefined <;> simp [h, h2]

theorem restored_completed (size done : Nat) (ps : List Part) :
    (restored true size done ps).map (·.status) = ps.map wanted := by
  induction ps generalizing done with
  | nil => rfl
  | cons p ps ih => simp [restored, ih, done_eq]

theorem restored_status (size done : Nat) (ps : List Part) (hd : done + ps.length ≤ size)
    (h : done + ps.length < size ∨ ∃ p ∈ ps, ¬ Done p) :
    (restored false size done ps).map (·.status) = ps.map wanted := by
  induction ps generalizing done with
  | nil => rfl
  | cons p ps ih =>
    simp only [List.length_cons] at hd h
    simp only [restored, List.map_cons, and_true]
    by_cases h1 : done + 1 = size
    · -- this is the last article and all before it are done
      have hps : ps = [] := List.length_eq_zero_iff.1 (by omega)
      subst hps
      have hnd : ¬ Done p := by
        rcases h with h | ⟨q, hq, hnq⟩
        · omega
        · have : q = p := by simpa using hq
          rwa [this] at hnq
      simp [h1, restored, wanted, hnd]
    · simp only [h1, false_or]
      rw [done_eq]
      congr 1
      by_cases h2 : Done p
      · have hw : wanted p ≠ aiUndefined := by simp [wanted, h2, h2.1]
        rw [if_pos hw]
        apply ih (done + 1) (by omega)
        rcases h with h | ⟨q, hq, hnq⟩
        · left; omega
        · rcases List.mem_cons.1 hq with e | e
          · rw [e] at hnq; exact absurd h2 hnq
          · exact Or.inr ⟨q, e, hnq⟩
      · have hw : ¬ wanted p ≠ aiUndefined := by simp [wanted, h2]
        rw [if_neg hw]
        exact ih done (by omega) (by left; omega)

theorem restored_all_done (size done : Nat) (ps : List Part) (p : Part) (hd : done + ps.length + 1 = size)
    (h : ∀ q ∈ ps, Done q) :
    (restored false size done (ps ++ [p])).map (·.status) = ps.map (·.status) ++ [aiUndefined] := by
  induction ps generalizing done with
  | nil => simp at hd; simp [restored, hd]
  | cons q ps ih =>
    simp only [List.length_cons] at hd
    have h1 : ¬ done + 1 = size := by omega
    have hq := h q (by simp)
    have hw : wanted q = q.status := by simp [wanted, hq]
    simp only [List.cons_append, restored, List.map_cons, and_true, h1, false_or]
    rw [done_eq, hw, if_pos hq.1, ih (done + 1) (by omega) (fun x hx => h x (by simp [hx]))]

/-- The offsets lie below 4 GiB. -/
def SmallOffsets (ps : List Part) : Prop := ∀ p ∈ ps, p.segmentOffset.toNat < 2 ^ 32

/-- C17, the part which holds: the progress of a file whose articles all lie below 4 GiB is restored: offsets, sizes
and checksums of the articles are unchanged; finished and failed articles keep their status, running ones become pending,
and the counter of completed articles is exact. A progress file of an unfinished file in which every article is done
gets its last article pending, so the file cannot get stuck. Missing: offsets from 4 GiB on, see `large_offset_lost`. -/
theorem file_state_roundtrip_partial (servers : List (I32 × I32)) (present : Option Nat) (completed : Bool) (s : State)
    (b rest : Bytes) (h : ValidState s) (hs : SameServers servers s.stats)
    (hp : ∀ k, present = some k → s.parts.length ≤ k) (hb : printLines (saveState s) = some b)
    (hsmall : SmallOffsets s.parts) :
    ∃ ps, loadState servers present completed (b ++ rest) =
        .ok ({ s with parts := ps }, (ps.filter (fun p => p.status ≠ aiUndefined)).length) ∧
      ps.map (fun p => (p.segmentOffset, p.segmentSize, p.crc)) =
        s.parts.map (fun p => (p.segmentOffset, p.segmentSize, p.crc)) ∧
      ((completed = true ∨ ∃ p ∈ s.parts, ¬ Done p) → ps.map (·.status) =
        s.parts.map (fun p => if p.status = aiRunning then aiUndefined else p.status)) ∧
      ((completed = false ∧ ∀ p ∈ s.parts, Done p) → ps.map (·.status) =
        (s.parts.map (·.status)).dropLast ++ (if s.parts = [] then [] else [aiUndefined])) ∧
      (completed = false → s.parts ≠ [] → ∃ p ∈ ps, p.status = aiUndefined) := by
  have e := loadState_file servers present completed s rest h hs hp
  rw [← (printLines_some _ _ hb).2 rest] at e
  have hw : s.parts.map wanted = s.parts.map (fun p => if p.status = aiRunning then aiUndefined else p.status) :=
    List.map_congr_left (fun p _ => (done_eq p).symm)
  have hall : (completed = false ∧ ∀ p ∈ s.parts, Done p) →
      (restored completed s.parts.length 0 s.parts).map (·.status) =
        (s.parts.map (·.status)).dropLast ++ (if s.parts = [] then [] else [aiUndefined]) := by
    rintro ⟨rfl, hd⟩
    rcases List.eq_nil_or_concat s.parts with hn | ⟨qs, q, hq⟩
    · simp [hn, restored]
    · rw [List.concat_eq_append] at hq
      rw [hq, restored_all_done _ _ _ _ (by simp)]
      · simp
      · intro x hx; exact hd x (by simp [hq, hx])
  have hsome : (completed = true ∨ ∃ p ∈ s.parts, ¬ Done p) →
      (restored completed s.parts.length 0 s.parts).map (·.status) = s.parts.map wanted := by
    rintro (rfl | hx)
    · exact restored_completed _ _ _
    · cases completed with
      | true => exact restored_completed _ _ _
      | false => exact restored_status _ _ _ (by omega) (Or.inr hx)
  refine ⟨_, e, ?_, ?_, hall, ?_⟩
  · rw [restored_data]
    apply List.map_congr_left
    intro p hp
    have := hsmall p hp
    have : (p.segmentOffset.setWidth 32).setWidth 64 = p.segmentOffset := by
      apply BitVec.eq_of_toNat_eq
      simp only [BitVec.toNat_setWidth]
      omega
    simp [this]
  · intro hx; rw [hsome hx, hw]
  · intro hc hne
    have key : aiUndefined ∈ (restored completed s.parts.length 0 s.parts).map (·.status) := by
      by_cases hd : ∀ p ∈ s.parts, Done p
      · rw [hall ⟨hc, hd⟩]; simp [hne]
      · have : ∃ p ∈ s.parts, ¬ Done p := by
          by_cases hx : ∃ p ∈ s.parts, ¬ Done p
          · exact hx
          · exact absurd (fun p hp => Decidable.byContradiction (fun hn => hx ⟨p, hp, hn⟩)) hd
        rw [hsome (Or.inr this)]
        obtain ⟨p, hp, hnp⟩ := this
        exact List.mem_map.2 ⟨p, hp, by simp [wanted, hnp]⟩
    obtain ⟨p, hp, he⟩ := List.mem_map.1 key
    exact ⟨p, hp, he⟩

/-- Violation of C17: the offset of every article at or beyond 4 GiB comes back as a smaller one. -/
theorem large_offset_lost (servers : List (I32 × I32)) (present : Option Nat) (completed : Bool) (s : State)
    (b rest : Bytes) (h : ValidState s) (hs : SameServers servers s.stats)
    (hp : ∀ k, present = some k → s.parts.length ≤ k) (hb : printLines (saveState s) = some b) (i : Nat)
    (p : Part) (hi : s.parts[i]? = some p) (hl : 2 ^ 32 ≤ p.segmentOffset.toNat) :
    ∃ s' n q, loadState servers present completed (b ++ rest) = .ok (s', n) ∧ s'.parts[i]? = some q ∧
      q.segmentOffset.toNat = p.segmentOffset.toNat % 2 ^ 32 ∧ q.segmentOffset ≠ p.segmentOffset := by
  have e := loadState_file servers present completed s rest h hs hp
  rw [← (printLines_some _ _ hb).2 rest] at e
  have hlt : i < s.parts.length := (List.getElem?_eq_some_iff.1 hi).1
  have hr : i < (restored completed s.parts.length 0 s.parts).length := by rw [length_restored]; exact hlt
  have hdat := restored_data completed s.parts.length 0 s.parts
  have := congrArg (fun l => l[i]?) hdat
  simp only [List.getElem?_map, List.getElem?_eq_getElem hr, hi, Option.map_some, Option.some.injEq, Prod.mk.injEq] at this
  refine ⟨_, _, _, e, List.getElem?_eq_getElem hr, ?_, ?_⟩
  · rw [this.1]; simp only [BitVec.toNat_setWidth]; omega
  · rw [this.1]
    intro he
    have := congrArg BitVec.toNat he
    simp only [BitVec.toNat_setWidth] at this
    omega

/-- A progress file with more articles than the article list has makes the loader throw: stale state files are
not detected. -/
theorem too_many_articles_throw (servers : List (I32 × I32)) (completed : Bool) (s : State) (k : Nat)
    (b rest : Bytes) (h : ValidState s) (hs : SameServers servers s.stats) (hk : k < s.parts.length)
    (hb : printLines (saveState s) = some b) : loadState servers (some k) completed (b ++ rest) = .exception := by
  rw [(printLines_some _ _ hb).2 rest]
  simp only [loadState, loadHead_file servers s rest h hs]
  have key : ∀ (ps : List Part) (size i done : Nat), i ≤ k → k < i + ps.length →
      loadParts (some k) size completed ps.length i done (file (ps.map savePart) rest) = .exception := by
    intro ps
    induction ps with
    | nil => intro size i done h1 h2; simp at h2; omega
    | cons p ps ih =>
      intro size i done h1 h2
      by_cases hki : k ≤ i
      · simp [loadParts, beyond, hki]
      · simp only [List.length_cons, List.map_cons, loadParts, beyond, hki, savePart]
        rw [scanLine_file [.i, .u, .i, .u] _ _ _ rfl (by simp)]
        simp only [List.map_cons, List.map_nil, decide_false, Bool.false_eq_true, if_false]
        rw [ih size (i + 1) _ (by omega) (by simp at h2; omega)]
  rw [key s.parts s.parts.length 0 0 (by omega) (by omega)]

/-! ### Concrete cases -/

def exState : State where
  successArticles := 1
  failedArticles := 1
  remainingSize := 5000000000
  successSize := 700
  failedSize := 700
  filename := [97]
  hash16k := []
  parSetId := [98]
  parFile := true
  stats := [⟨1, 1, 1⟩]
  parts := [⟨2, 0, 700, 4000000000⟩, ⟨3, 700, 700, 0⟩, ⟨1, 1400, 700, 7⟩, ⟨0, 2100, 700, 0⟩]

example : ValidState exState := by constructor <;> decide
example : SameServers [(1, 1)] exState.stats := by constructor <;> decide
example : SmallOffsets exState.parts := by unfold SmallOffsets; decide
example : ∃ p ∈ exState.parts, ¬ Done p := ⟨⟨1, 1400, 700, 7⟩, by decide, by decide⟩
example : ∃ b, printLines (saveState exState) = some b := printLines_ok _ (by decide +kernel)
example : (printLines (saveState exState)).map (fun b => loadState [(1, 1)] (some 4) false b) =
    some (.ok ({ exState with parts := [⟨2, 0, 700, 4000000000⟩, ⟨3, 700, 700, 0⟩, ⟨0, 1400, 700, 7⟩,
      ⟨0, 2100, 700, 0⟩] }, 2)) := by decide +kernel
example : (printLines (saveState { exState with parts := [⟨2, 4294967296, 700, 1⟩] })).map
    (fun b => loadState [(1, 1)] none true b) =
    some (.ok ({ exState with parts := [⟨2, 0, 700, 1⟩] }, 1)) := by decide +kernel

def exInfo : Info where
  subject := [34, 97, 34]
  filename := [97]
  origname := []
  filenameConfirmed := true
  time := 1700000000
  size := 6000000000
  missedSize := 5
  parFile := false
  totalArticles := 2
  missedArticles := 1
  groups := [[97, 46, 98], [99]]
  articles := [⟨1, 700, [60, 62]⟩, ⟨2, 600, [120]⟩]

example : ValidInfo exInfo := by constructor <;> first | decide | exact ⟨by decide, by decide⟩
example : (printLines (saveInfo exInfo)).bind loadInfo = some ((exInfo, 5999999995), []) := by decide +kernel

end Verif.FileState
