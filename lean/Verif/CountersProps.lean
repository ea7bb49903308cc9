/-
C21-C23: the counters of a queue entry describe its files.
-/
import Verif.Counters

namespace Verif.Counters

/-! ### Specification -/

/-- The sum of a number over files. -/
def tally (g : File → Int) (l : List File) : Int := (l.map g).sum

/-- `x` if the flag is set. -/
def only (b : Bool) (x : Int) : Int := if b then x else 0

/-- The articles downloaded from a server. -/
def fromServer (s : Nat) (l : List Stat) : Int := ((l.filter (fun x => x.server = s)).map Stat.success).sum

/-- The articles which failed on a server. -/
def failedOn (s : Nat) (l : List Stat) : Int := ((l.filter (fun x => x.server = s)).map Stat.failed).sum

/-- The current counters of an entry are what its list of files says, added to what its completed files have left. -/
structure Exact (n : Nzb) : Prop where
  remaining : n.remaining = tally (·.remaining) n.files
  pausedCount : n.pausedCount = tally (fun f => only f.paused 1) n.files
  pausedSize : n.pausedSize = tally (fun f => only f.paused f.remaining) n.files
  extra : n.extra = tally (fun f => only f.extra 1) n.files
  parCount : n.parCount = tally (fun f => only f.par 1) n.files
  curSuccess : n.curSuccess = n.success + tally (·.success) n.files
  curFailed : n.curFailed = n.failed + tally (·.failed) n.files
  parCurSuccess : n.parCurSuccess = n.parSuccess + tally (fun f => only f.par f.success) n.files
  parCurFailed : n.parCurFailed = n.parFailed + tally (fun f => only f.par f.failed) n.files
  curSuccessArticles : n.curSuccessArticles = n.successArticles + tally (·.successArticles) n.files
  curFailedArticles : n.curFailedArticles = n.failedArticles + tally (·.failedArticles) n.files
  server : ∀ s, fromServer s n.curStats = fromServer s n.stats + tally (fun f => fromServer s f.stats) n.files
  serverFailed : ∀ s, failedOn s n.curStats = failedOn s n.stats + tally (fun f => failedOn s f.stats) n.files

/-- The totals of an entry with the completed files `done` are those of its files and of these. -/
structure Whole (n : Nzb) (done : List File) : Prop where
  fileCount : n.fileCount = n.files.length + done.length
  size : n.size = tally (·.size) n.files + tally (·.size) done
  parSize : n.parSize = tally (fun f => only f.par f.size) n.files + tally (fun f => only f.par f.size) done
  total : n.total = tally (·.total) n.files + tally (·.total) done
  success : n.success = tally (·.success) done
  failed : n.failed = tally (·.missed) n.files + tally (fun f => f.missed + f.failed) done
  parSuccess : n.parSuccess = tally (fun f => only f.par f.success) done
  parFailed : n.parFailed = tally (fun f => only f.par f.missed) n.files + tally (fun f => only f.par (f.missed + f.failed)) done
  successArticles : n.successArticles = tally (·.successArticles) done
  failedArticles : n.failedArticles = tally (·.missedArticles) n.files + tally (fun f => f.missedArticles + f.failedArticles) done

/-- The size of a file is made of what was downloaded, what failed, what is missing in the nzb-file, and what remains. -/
def Sized (f : File) : Prop :=
  f.success + f.failed + f.missed + f.remaining = f.size ∧ 0 ≤ f.success ∧ 0 ≤ f.failed ∧ 0 ≤ f.missed ∧ 0 ≤ f.remaining

/-! ### Sums -/

theorem tally_nil (g : File → Int) : tally g [] = 0 := rfl
theorem tally_cons (g : File → Int) (f : File) (l : List File) : tally g (f :: l) = g f + tally g l := by simp [tally]
theorem tally_append (g : File → Int) (a b : List File) : tally g (a ++ b) = tally g a + tally g b := by simp [tally]

theorem tally_change {i : Nat} {f : File} {l : List File} (h : find i l = some f) (g : File → Int) (c : File → File) :
    tally g (change i c l) = tally g l - g f + g (c f) := by
  induction l with
  | nil => simp [find] at h
  | cons x l ih =>
    unfold find at h
    unfold change
    by_cases hx : x.id = i
    · rw [if_pos hx] at h ⊢
      injection h with h
      subst h
      simp only [tally_cons]
      omega
    · rw [if_neg hx] at h ⊢
      simp only [tally_cons, ih h]
      omega

theorem tally_remove {i : Nat} {f : File} {l : List File} (h : find i l = some f) (g : File → Int) :
    tally g (remove i l) = tally g l - g f := by
  induction l with
  | nil => simp [find] at h
  | cons x l ih =>
    unfold find at h
    unfold remove
    by_cases hx : x.id = i
    · rw [if_pos hx] at h ⊢
      injection h with h
      subst h
      simp only [tally_cons]
      omega
    · rw [if_neg hx] at h ⊢
      simp only [tally_cons, ih h]
      omega

theorem find_change {i : Nat} {f : File} {l : List File} (h : find i l = some f) (c : File → File) (hc : ∀ f, (c f).id = f.id) :
    find i (change i c l) = some (c f) := by
  induction l with
  | nil => simp [find] at h
  | cons x l ih =>
    unfold find at h
    unfold change
    by_cases hx : x.id = i
    · rw [if_pos hx] at h ⊢
      injection h with h
      subst h
      simp [find, hc, hx]
    · rw [if_neg hx] at h ⊢
      simp [find, hx, ih h]

theorem find_id {i : Nat} {f : File} {l : List File} (h : find i l = some f) : f.id = i := by
  induction l with
  | nil => simp [find] at h
  | cons x l ih =>
    unfold find at h
    by_cases hx : x.id = i
    · rw [if_pos hx] at h
      injection h with h
      subst h
      exact hx
    · rw [if_neg hx] at h
      exact ih h

theorem find_mem {i : Nat} {f : File} {l : List File} (h : find i l = some f) : f ∈ l := by
  induction l with
  | nil => simp [find] at h
  | cons x l ih =>
    unfold find at h
    by_cases hx : x.id = i
    · rw [if_pos hx] at h
      injection h with h
      subst h
      exact List.mem_cons_self
    · rw [if_neg hx] at h
      exact List.mem_cons_of_mem _ (ih h)

theorem mem_change {i : Nat} {c : File → File} {l : List File} {x : File} (h : x ∈ change i c l) :
    x ∈ l ∨ ∃ f, find i l = some f ∧ x = c f := by
  induction l with
  | nil => simp [change] at h
  | cons y l ih =>
    unfold change at h
    unfold find
    by_cases hy : y.id = i
    · rw [if_pos hy] at h ⊢
      rcases List.mem_cons.1 h with rfl | h
      · exact Or.inr ⟨y, rfl, rfl⟩
      · exact Or.inl (List.mem_cons_of_mem _ h)
    · rw [if_neg hy] at h ⊢
      rcases List.mem_cons.1 h with rfl | h
      · exact Or.inl List.mem_cons_self
      · rcases ih h with h | h
        · exact Or.inl (List.mem_cons_of_mem _ h)
        · exact Or.inr h

theorem mem_remove {i : Nat} {l : List File} {x : File} (h : x ∈ remove i l) : x ∈ l := by
  induction l with
  | nil => simp [remove] at h
  | cons y l ih =>
    unfold remove at h
    by_cases hy : y.id = i
    · rw [if_pos hy] at h
      exact List.mem_cons_of_mem _ h
    · rw [if_neg hy] at h
      rcases List.mem_cons.1 h with rfl | h
      · exact List.mem_cons_self
      · exact List.mem_cons_of_mem _ (ih h)

theorem length_remove {i : Nat} {f : File} {l : List File} (h : find i l = some f) : (remove i l).length + 1 = l.length := by
  induction l with
  | nil => simp [find] at h
  | cons x l ih =>
    unfold find at h
    unfold remove
    by_cases hx : x.id = i
    · rw [if_pos hx]
      rfl
    · rw [if_neg hx] at h ⊢
      simp [ih h]

theorem length_change {i : Nat} {c : File → File} {l : List File} : (change i c l).length = l.length := by
  induction l with
  | nil => rfl
  | cons x l ih =>
    unfold change
    by_cases hx : x.id = i
    · rw [if_pos hx]; rfl
    · rw [if_neg hx]; simp [ih]

/-! ### Server statistics -/

theorem fromServer_cons (s : Nat) (x : Stat) (l : List Stat) :
    fromServer s (x :: l) = (if x.server = s then x.success else 0) + fromServer s l := by
  unfold fromServer
  by_cases h : x.server = s <;> simp [h]

theorem failedOn_cons (s : Nat) (x : Stat) (l : List Stat) :
    failedOn s (x :: l) = (if x.server = s then x.failed else 0) + failedOn s l := by
  unfold failedOn
  by_cases h : x.server = s <;> simp [h]

theorem fromServer_statOp_add (s v : Nat) (a b : Int) (l : List Stat) :
    fromServer s (statOp .add v a b l) = fromServer s l + (if v = s then a else 0) := by
  induction l with
  | nil => by_cases hs : v = s <;> simp [statOp, StatOp.apply, fromServer, hs]
  | cons x l ih =>
    unfold statOp
    by_cases hx : x.server = v
    · rw [if_pos hx]
      simp only [fromServer_cons, StatOp.apply, hx]
      by_cases hs : v = s <;> simp only [hs, if_true, if_false] <;> omega
    · rw [if_neg hx]
      simp only [fromServer_cons, ih]
      omega

theorem failedOn_statOp_add (s v : Nat) (a b : Int) (l : List Stat) :
    failedOn s (statOp .add v a b l) = failedOn s l + (if v = s then b else 0) := by
  induction l with
  | nil => by_cases hs : v = s <;> simp [statOp, StatOp.apply, failedOn, hs]
  | cons x l ih =>
    unfold statOp
    by_cases hx : x.server = v
    · rw [if_pos hx]
      simp only [failedOn_cons, StatOp.apply, hx]
      by_cases hs : v = s <;> simp only [hs, if_true, if_false] <;> omega
    · rw [if_neg hx]
      simp only [failedOn_cons, ih]
      omega

theorem fromServer_statOp_sub (s v : Nat) (a b : Int) (l : List Stat) :
    fromServer s (statOp .subtract v a b l) = fromServer s l - (if v = s then a else 0) := by
  induction l with
  | nil => by_cases hs : v = s <;> simp [statOp, StatOp.apply, fromServer, hs]
  | cons x l ih =>
    unfold statOp
    by_cases hx : x.server = v
    · rw [if_pos hx]
      simp only [fromServer_cons, StatOp.apply, hx]
      by_cases hs : v = s <;> simp only [hs, if_true, if_false] <;> omega
    · rw [if_neg hx]
      simp only [fromServer_cons, ih]
      omega

theorem failedOn_statOp_sub (s v : Nat) (a b : Int) (l : List Stat) :
    failedOn s (statOp .subtract v a b l) = failedOn s l - (if v = s then b else 0) := by
  induction l with
  | nil => by_cases hs : v = s <;> simp [statOp, StatOp.apply, failedOn, hs]
  | cons x l ih =>
    unfold statOp
    by_cases hx : x.server = v
    · rw [if_pos hx]
      simp only [failedOn_cons, StatOp.apply, hx]
      by_cases hs : v = s <;> simp only [hs, if_true, if_false] <;> omega
    · rw [if_neg hx]
      simp only [failedOn_cons, ih]
      omega

theorem fromServer_add (s : Nat) (l other : List Stat) : fromServer s (listOp .add l other) = fromServer s l + fromServer s other := by
  induction other generalizing l with
  | nil => simp [listOp, fromServer]
  | cons x other ih =>
    simp only [listOp, ih, fromServer_statOp_add, fromServer_cons]
    omega

theorem failedOn_add (s : Nat) (l other : List Stat) : failedOn s (listOp .add l other) = failedOn s l + failedOn s other := by
  induction other generalizing l with
  | nil => simp [listOp, failedOn]
  | cons x other ih =>
    simp only [listOp, ih, failedOn_statOp_add, failedOn_cons]
    omega

theorem fromServer_sub (s : Nat) (l other : List Stat) : fromServer s (listOp .subtract l other) = fromServer s l - fromServer s other := by
  induction other generalizing l with
  | nil => simp [listOp, fromServer]
  | cons x other ih =>
    simp only [listOp, ih, fromServer_statOp_sub, fromServer_cons]
    omega

theorem failedOn_sub (s : Nat) (l other : List Stat) : failedOn s (listOp .subtract l other) = failedOn s l - failedOn s other := by
  induction other generalizing l with
  | nil => simp [listOp, failedOn]
  | cons x other ih =>
    simp only [listOp, ih, failedOn_statOp_sub, failedOn_cons]
    omega

theorem servers_statOp (op : StatOp) (v : Nat) (a b : Int) (l : List Stat) :
    (statOp op v a b l).map Stat.server = if v ∈ l.map Stat.server then l.map Stat.server else l.map Stat.server ++ [v] := by
  induction l with
  | nil => cases op <;> simp [statOp, StatOp.apply]
  | cons x l ih =>
    unfold statOp
    by_cases hx : x.server = v
    · rw [if_pos hx, if_pos (by simp [hx])]
      cases op <;> simp [StatOp.apply]
    · rw [if_neg hx, List.map_cons, ih, List.map_cons]
      have : v ∈ x.server :: l.map Stat.server ↔ v ∈ l.map Stat.server := by
        simp only [List.mem_cons]
        exact ⟨fun h => h.resolve_left (fun h => hx h.symm), Or.inr⟩
      by_cases hv : v ∈ l.map Stat.server
      · rw [if_pos hv, if_pos (this.2 hv)]
      · rw [if_neg hv, if_neg (fun h => hv (this.1 h))]
        rfl

theorem nodup_statOp {op : StatOp} {v : Nat} {a b : Int} {l : List Stat} (h : (l.map Stat.server).Nodup) :
    ((statOp op v a b l).map Stat.server).Nodup := by
  rw [servers_statOp]
  split
  · exact h
  · rename_i hv
    rw [List.nodup_append]
    refine ⟨h, by simp, ?_⟩
    intro x hx y hy
    simp only [List.mem_singleton] at hy
    subst hy
    intro hxy
    subst hxy
    exact hv hx

theorem nodup_listOp {op : StatOp} {other : List Stat} : ∀ {l : List Stat}, (l.map Stat.server).Nodup →
    ((listOp op l other).map Stat.server).Nodup := by
  induction other with
  | nil => intro l h; exact h
  | cons x other ih => intro l h; exact ih (nodup_statOp h)

theorem statOp_set_new {v : Nat} {a b : Int} {l : List Stat} (h : v ∉ l.map Stat.server) : statOp .set v a b l = l ++ [⟨v, a, b⟩] := by
  induction l with
  | nil => rfl
  | cons x l ih =>
    simp only [List.map_cons, List.mem_cons, not_or] at h
    unfold statOp
    rw [if_neg (fun hx => h.1 hx.symm), ih h.2]
    rfl

/-- Setting the statistics of an empty list copies them. -/
theorem listOp_set_nil {other : List Stat} : ∀ {l : List Stat}, ((l ++ other).map Stat.server).Nodup → listOp .set l other = l ++ other := by
  induction other with
  | nil => intro l _; simp [listOp]
  | cons x other ih =>
    intro l h
    unfold listOp
    have hx : x.server ∉ l.map Stat.server := by
      rw [List.map_append, List.nodup_append] at h
      intro hm
      exact h.2.2 _ hm x.server (by simp) rfl
    rw [statOp_set_new hx, ih]
    · simp
    · simpa using h

/-! ### Events in the life of an entry -/

/-- What happens to an entry while it is in the queue. -/
inductive Event
  | pause (file : Nat) (b : Bool)
  | extra (file : Nat) (b : Bool)
  | par (file : Nat) (b : Bool)
  | article (file : Nat) (r : Result) (size : Int) (stats : List Stat) (downloaded : Int)
  | complete (file : Nat)
  | delete (file : Nat)
  | discard (file : Nat)
deriving Repr

def step (n : Nzb) : Event → Nzb
  | .pause i b => setPaused n i b
  | .extra i b => setExtra n i b
  | .par i b => setPar n i b
  | .article i r size stats d => articleCompleted n i r size stats d
  | .complete i => completeFile n i
  | .delete i => deleteFile n i
  | .discard i => discardArticles n i

def run (n : Nzb) (es : List Event) : Nzb := es.foldl step n

/-- An article which is finished is one of those which remain; a file is completed when nothing remains. -/
def Allowed (n : Nzb) : Event → Prop
  | .article i _ size _ _ => ∀ f, find i n.files = some f → 0 ≤ size ∧ size ≤ f.remaining
  | .complete i => ∀ f, find i n.files = some f → f.remaining = 0
  | _ => True

def AllAllowed (n : Nzb) : List Event → Prop
  | [] => True
  | e :: es => Allowed n e ∧ AllAllowed (step n e) es

/-- The completed files after an event. -/
def doneAfter (n : Nzb) (done : List File) : Event → List File
  | .complete i => match find i n.files with | some f => done ++ [f] | none => done
  | _ => done

def doneRun : Nzb → List File → List Event → List File
  | _, done, [] => done
  | n, done, e :: es => doneRun (step n e) (doneAfter n done e) es

/-- All of it: the counters are exact, the totals are right, and every file is made of its parts. -/
structure Good (n : Nzb) (done : List File) : Prop where
  exact : Exact n
  whole : Whole n done
  sized : ∀ f ∈ n.files, Sized f
  sizedDone : ∀ f ∈ done, Sized f ∧ f.remaining = 0
  servers : (n.stats.map Stat.server).Nodup

theorem only_true (x : Int) : only true x = x := rfl
theorem only_false (x : Int) : only false x = 0 := rfl

theorem sized_change {i : Nat} {c : File → File} {l : List File} (h : ∀ f ∈ l, Sized f) (hc : ∀ f, find i l = some f → Sized (c f)) :
    ∀ f ∈ change i c l, Sized f := by
  intro x hx
  rcases mem_change hx with h' | ⟨g, hg, rfl⟩
  · exact h x h'
  · exact hc g hg

theorem sized_remove {i : Nat} {l : List File} (h : ∀ f ∈ l, Sized f) : ∀ f ∈ remove i l, Sized f :=
  fun x hx => h x (mem_remove hx)

theorem good_pause {n : Nzb} {done : List File} (i : Nat) (b : Bool) (h : Good n done) : Good (setPaused n i b) done := by
  unfold setPaused
  cases hf : find i n.files with
  | none => exact h
  | some f =>
    obtain ⟨⟨e1, e2, e3, e4, e5, e6, e7, e8, e9, e10, e11, e12, e13⟩, ⟨w1, w2, w3, w4, w5, w6, w7, w8, w9, w10⟩, hs, hd, hu⟩ := h
    have hsz := sized_change (i := i) (c := fun f => { f with paused := b }) hs (fun g hg => hs g (find_mem hg))
    dsimp only
    cases hp : f.paused <;> cases b <;> simp only [ne_eq, not_true_eq_false, if_false, if_true, Bool.false_eq_true, not_false_eq_true,
      Bool.true_eq_false] <;> refine ⟨?_, ?_, hsz, hd, hu⟩ <;> constructor <;>
      (try intro s; have e12 := e12 s; have e13 := e13 s) <;> dsimp only <;>
      (try simp only [length_change, tally_change hf, hp, only_true, only_false]) <;> omega

theorem good_extra {n : Nzb} {done : List File} (i : Nat) (b : Bool) (h : Good n done) : Good (setExtra n i b) done := by
  unfold setExtra
  cases hf : find i n.files with
  | none => exact h
  | some f =>
    obtain ⟨⟨e1, e2, e3, e4, e5, e6, e7, e8, e9, e10, e11, e12, e13⟩, ⟨w1, w2, w3, w4, w5, w6, w7, w8, w9, w10⟩, hs, hd, hu⟩ := h
    have hsz := sized_change (i := i) (c := fun f => { f with extra := b }) hs (fun g hg => hs g (find_mem hg))
    dsimp only
    cases hp : f.extra <;> cases b <;> simp only [ne_eq, not_true_eq_false, if_false, if_true, Bool.false_eq_true, not_false_eq_true,
      Bool.true_eq_false] <;> refine ⟨?_, ?_, hsz, hd, hu⟩ <;> constructor <;>
      (try intro s; have e12 := e12 s; have e13 := e13 s) <;> dsimp only <;>
      (try simp only [length_change, tally_change hf, hp, only_true, only_false]) <;> omega

theorem good_par {n : Nzb} {done : List File} (i : Nat) (b : Bool) (h : Good n done) : Good (setPar n i b) done := by
  unfold setPar
  cases hf : find i n.files with
  | none => exact h
  | some f =>
    have key : Good { n with
        files := change i (fun f => { f with par := b }) n.files,
        parSize := n.parSize + f.size * (if b then 1 else -1),
        parCurSuccess := n.parCurSuccess + f.success * (if b then 1 else -1),
        parCurFailed := n.parCurFailed + f.failed * (if b then 1 else -1) + f.missed * (if b then 1 else -1),
        parFailed := n.parFailed + f.missed * (if b then 1 else -1),
        parCount := n.parCount + 1 * (if b then 1 else -1) } done ∨ f.par = b := by
      by_cases hb : f.par = b
      · exact Or.inr hb
      · left
        obtain ⟨⟨e1, e2, e3, e4, e5, e6, e7, e8, e9, e10, e11, e12, e13⟩, ⟨w1, w2, w3, w4, w5, w6, w7, w8, w9, w10⟩, hs, hd, hu⟩ := h
        have hsz := sized_change (i := i) (c := fun f => { f with par := b }) hs (fun g hg => hs g (find_mem hg))
        refine ⟨?_, ?_, hsz, hd, hu⟩ <;> constructor <;>
          (try intro s; have e12 := e12 s; have e13 := e13 s) <;> dsimp only <;>
          cases b <;> simp only [Bool.not_eq_false, Bool.not_eq_true] at hb <;>
          (try simp only [length_change, tally_change hf, hb, only_true, only_false, Bool.false_eq_true, reduceIte]) <;> omega
    dsimp only
    by_cases hb : f.par = b
    · rw [if_neg (show ¬ (f.par ≠ b) from fun c => c hb)]
      exact h
    · rcases key with key | key
      · rw [if_pos hb]
        split
        · exact good_pause i false key
        · exact key
      · exact absurd key hb

theorem good_article {n : Nzb} {done : List File} (i : Nat) (r : Result) (size : Int) (stats : List Stat) (d : Int)
    (ha : Allowed n (.article i r size stats d)) (h : Good n done) : Good (articleCompleted n i r size stats d) done := by
  unfold articleCompleted
  unfold Allowed at ha
  cases hf : find i n.files with
  | none => exact h
  | some f =>
    have ha := ha f hf
    obtain ⟨⟨e1, e2, e3, e4, e5, e6, e7, e8, e9, e10, e11, e12, e13⟩, ⟨w1, w2, w3, w4, w5, w6, w7, w8, w9, w10⟩, hs, hd, hu⟩ := h
    cases r with
    | retry =>
      refine ⟨?_, ?_, hs, hd, hu⟩ <;> constructor <;> assumption
    | finished =>
      refine ⟨?_, ?_, sized_change hs ?_, hd, hu⟩
      · constructor <;> (try intro s; have e12 := e12 s; have e13 := e13 s) <;> dsimp only <;>
          cases hp : f.par <;> cases hq : f.paused <;>
          (try simp only [tally_change hf, hp, hq, only_true, only_false, fromServer_add, failedOn_add, Bool.false_eq_true, reduceIte]) <;> omega
      · constructor <;> dsimp only <;> (try simp only [length_change, tally_change hf]) <;> omega
      · intro g hg
        have := hs g (find_mem hg)
        have : f = g := by rw [hf] at hg; injection hg
        subst this
        unfold Sized at *
        dsimp only
        omega
    | failed =>
      refine ⟨?_, ?_, sized_change hs ?_, hd, hu⟩
      · constructor <;> (try intro s; have e12 := e12 s; have e13 := e13 s) <;> dsimp only <;>
          cases hp : f.par <;> cases hq : f.paused <;>
          (try simp only [tally_change hf, hp, hq, only_true, only_false, fromServer_add, failedOn_add, Bool.false_eq_true, reduceIte]) <;> omega
      · constructor <;> dsimp only <;> (try simp only [length_change, tally_change hf]) <;> omega
      · intro g hg
        have := hs g (find_mem hg)
        have : f = g := by rw [hf] at hg; injection hg
        subst this
        unfold Sized at *
        dsimp only
        omega

theorem good_complete {n : Nzb} {done : List File} (i : Nat) (ha : Allowed n (.complete i)) (h : Good n done) :
    Good (completeFile n i) (doneAfter n done (.complete i)) := by
  unfold completeFile doneAfter
  unfold Allowed at ha
  dsimp only
  cases hf : find i n.files with
  | none => exact h
  | some f =>
    have ha := ha f hf
    obtain ⟨⟨e1, e2, e3, e4, e5, e6, e7, e8, e9, e10, e11, e12, e13⟩, ⟨w1, w2, w3, w4, w5, w6, w7, w8, w9, w10⟩, hs, hd, hu⟩ := h
    refine ⟨?_, ?_, sized_remove hs, ?_, nodup_listOp hu⟩
    · constructor <;> (try intro s; have e12 := e12 s; have e13 := e13 s) <;> dsimp only [updateCompletedStats] <;>
        cases hp : f.par <;> cases hq : f.paused <;> cases he : f.extra <;>
        (try simp only [tally_remove hf, hp, hq, he, only_true, only_false, fromServer_add, failedOn_add, Bool.false_eq_true, reduceIte]) <;> omega
    · have hl := length_remove hf
      constructor <;> dsimp only [updateCompletedStats] <;> cases hp : f.par <;>
        (try simp only [tally_remove hf, tally_append, tally_cons, tally_nil, hp, only_true, only_false, List.length_append, List.length_cons,
          List.length_nil, Bool.false_eq_true, reduceIte]) <;> omega
    · intro g hg
      rcases List.mem_append.1 hg with hg | hg
      · exact hd g hg
      · simp only [List.mem_singleton] at hg
        subst hg
        exact ⟨hs g (find_mem hf), ha⟩

theorem good_delete {n : Nzb} {done : List File} (i : Nat) (h : Good n done) : Good (deleteFile n i) done := by
  unfold deleteFile
  cases hf : find i n.files with
  | none => exact h
  | some f =>
    obtain ⟨⟨e1, e2, e3, e4, e5, e6, e7, e8, e9, e10, e11, e12, e13⟩, ⟨w1, w2, w3, w4, w5, w6, w7, w8, w9, w10⟩, hs, hd, hu⟩ := h
    have hl := length_remove hf
    refine ⟨?_, ?_, sized_remove hs, hd, hu⟩
    · constructor <;> (try intro s; have e12 := e12 s; have e13 := e13 s) <;> dsimp only [updateDeletedStats] <;>
        cases hp : f.par <;> cases hq : f.paused <;> cases he : f.extra <;>
        (try simp only [tally_remove hf, hp, hq, he, only_true, only_false, fromServer_sub, failedOn_sub, Bool.false_eq_true, reduceIte]) <;> omega
    · constructor <;> dsimp only [updateDeletedStats] <;> cases hp : f.par <;>
        (try simp only [tally_remove hf, hp, only_true, only_false, Bool.false_eq_true, reduceIte]) <;> omega

theorem good_discard {n : Nzb} {done : List File} (i : Nat) (h : Good n done) : Good (discardArticles n i) done := by
  unfold discardArticles
  cases hf : find i n.files with
  | none => exact h
  | some f =>
    dsimp only
    cases hp : f.par with
    | false => simpa only [Bool.false_eq_true, reduceIte] using h
    | true =>
      simp only [reduceIte]
      obtain ⟨⟨e1, e2, e3, e4, e5, e6, e7, e8, e9, e10, e11, e12, e13⟩, ⟨w1, w2, w3, w4, w5, w6, w7, w8, w9, w10⟩, hs, hd, hu⟩ := h
      have hz := hs f (find_mem hf)
      unfold Sized at hz
      refine ⟨?_, ?_, sized_change hs ?_, hd, hu⟩
      · constructor <;> (try intro s; have e12 := e12 s; have e13 := e13 s) <;> dsimp only <;> cases hq : f.paused <;>
          (try simp only [tally_change hf, hp, hq, only_true, only_false, fromServer_sub, failedOn_sub, Bool.false_eq_true, reduceIte]) <;>
          (try simp only [fromServer, failedOn, List.filter_nil, List.map_nil, List.sum_nil] at *) <;> omega
      · constructor <;> dsimp only <;> (try simp only [length_change, tally_change hf]) <;> omega
      · intro g hg
        have : f = g := by rw [hf] at hg; injection hg
        subst this
        unfold Sized
        dsimp only
        omega

theorem good_step {n : Nzb} {done : List File} {e : Event} (ha : Allowed n e) (h : Good n done) : Good (step n e) (doneAfter n done e) := by
  cases e with
  | pause i b => exact good_pause i b h
  | extra i b => exact good_extra i b h
  | par i b => exact good_par i b h
  | article i r size stats d => exact good_article i r size stats d ha h
  | complete i => exact good_complete i ha h
  | delete i => exact good_delete i h
  | discard i => exact good_discard i h

theorem good_run {es : List Event} : ∀ {n : Nzb} {done : List File}, AllAllowed n es → Good n done → Good (run n es) (doneRun n done es) := by
  induction es with
  | nil => intro n done _ h; exact h
  | cons e es ih => intro n done ha h; exact ih ha.2 (good_step ha.1 h)

/-! ### C23 -/

/-- A file of a new nzb-file: nothing is downloaded yet, the missing articles are known. -/
def Fresh (f : File) : Prop :=
  f.success = 0 ∧ f.failed = 0 ∧ f.successArticles = 0 ∧ f.failedArticles = 0 ∧ f.paused = false ∧ f.extra = false ∧ f.stats = [] ∧
  0 ≤ f.missed ∧ 0 ≤ f.remaining ∧ f.missed + f.remaining = f.size

/-- The entry made from the files of an nzb-file, NzbFile.cpp:348-379. -/
def newEntry (id : Nat) (files : List File) : Nzb := files.foldl addNewFile (Nzb.new id)

theorem good_addNewFile {n : Nzb} {f : File} (hf : Fresh f) (h : Good n []) (h1 : n.curFailed = n.failed)
    (h2 : n.parCurFailed = n.parFailed) :
    Good (addNewFile n f) [] ∧ (addNewFile n f).curFailed = (addNewFile n f).failed ∧
      (addNewFile n f).parCurFailed = (addNewFile n f).parFailed := by
  obtain ⟨⟨e1, e2, e3, e4, e5, e6, e7, e8, e9, e10, e11, e12, e13⟩, ⟨w1, w2, w3, w4, w5, w6, w7, w8, w9, w10⟩, hs, hd, hu⟩ := h
  obtain ⟨f1, f2, f3, f4, f5, f6, f7, f8, f9, f10⟩ := hf
  simp only [tally_nil] at w1 w2 w3 w4 w5 w6 w7 w8 w9 w10
  have hsz : ∀ g ∈ n.files ++ [f], Sized g := by
    intro g hg
    rcases List.mem_append.1 hg with hg | hg
    · exact hs g hg
    · simp only [List.mem_singleton] at hg
      subst hg
      unfold Sized
      omega
  unfold addNewFile
  cases hp : f.par
  · refine ⟨⟨?_, ?_, hsz, hd, hu⟩, rfl, h2⟩
    · constructor <;> (try intro s; have e12 := e12 s; have e13 := e13 s) <;> dsimp only <;>
        simp only [tally_append, tally_cons, tally_nil, f1, f2, f3, f4, f5, f6, f7, hp, only_true, only_false, Bool.false_eq_true, reduceIte,
          fromServer, failedOn, List.filter_nil, List.map_nil, List.sum_nil] at * <;> omega
    · constructor <;> dsimp only <;>
        simp only [tally_append, tally_cons, tally_nil, hp, only_true, only_false, Bool.false_eq_true, reduceIte, List.length_append,
          List.length_cons, List.length_nil] at * <;> omega
  · refine ⟨⟨?_, ?_, hsz, hd, hu⟩, rfl, rfl⟩
    · constructor <;> (try intro s; have e12 := e12 s; have e13 := e13 s) <;> dsimp only <;>
        simp only [tally_append, tally_cons, tally_nil, f1, f2, f3, f4, f5, f6, f7, hp, only_true, only_false, Bool.false_eq_true, reduceIte,
          fromServer, failedOn, List.filter_nil, List.map_nil, List.sum_nil] at * <;> omega
    · constructor <;> dsimp only <;>
        simp only [tally_append, tally_cons, tally_nil, hp, only_true, only_false, Bool.false_eq_true, reduceIte, List.length_append,
          List.length_cons, List.length_nil] at * <;> omega

theorem good_newEntry {id : Nat} {files : List File} (hf : ∀ f ∈ files, Fresh f) : Good (newEntry id files) [] := by
  have key : ∀ (l : List File) (n : Nzb), (∀ f ∈ l, Fresh f) → Good n [] → n.curFailed = n.failed → n.parCurFailed = n.parFailed →
      Good (l.foldl addNewFile n) [] := by
    intro l
    induction l with
    | nil => intro n _ h _ _; exact h
    | cons f l ih =>
      intro n hl h h1 h2
      obtain ⟨g, g1, g2⟩ := good_addNewFile (hl f List.mem_cons_self) h h1 h2
      exact ih _ (fun x hx => hl x (List.mem_cons_of_mem _ hx)) g g1 g2
  refine key files _ hf ?_ rfl rfl
  refine ⟨?_, ?_, (fun f hf => absurd hf (by simp [Nzb.new])), (fun f hf => absurd hf (by simp)), by simp [Nzb.new]⟩
  · constructor <;> intros <;> rfl
  · constructor <;> rfl

/-- **C23.** Take an nzb-file and let anything happen to its entry in the queue: files are paused, resumed, given extra priority, found to
be par2-files or not, their articles arrive or fail or are tried again, they are completed, deleted, or their articles discarded. After
any such history the number and size of the paused files, the number of files with extra priority, the number of par2-files, the remaining
size, the downloaded and failed sizes and articles and those of each server are what the list of files says; the totals are those of the files
and of the completed files. -/
theorem counters_describe_files {id : Nat} {files : List File} {es : List Event} (hf : ∀ f ∈ files, Fresh f)
    (ha : AllAllowed (newEntry id files) es) :
    Exact (run (newEntry id files) es) ∧
    Whole (run (newEntry id files) es) (doneRun (newEntry id files) [] es) :=
  ⟨(good_run ha (good_newEntry hf)).exact, (good_run ha (good_newEntry hf)).whole⟩

/-- A history with a pause, articles which arrive and fail, a completed, a deleted and a par2-file. -/
def exampleFile (id : Nat) (size missed : Int) (par : Bool) : File :=
  { id := id, time := 0, size := size, remaining := size - missed, missed := missed, success := 0, failed := 0, total := 2,
    missedArticles := if missed = 0 then 0 else 1, successArticles := 0, failedArticles := 0, completedArticles := 0, active := 0, par := par,
    paused := false, extra := false, stats := [] }

def exampleHistory : List Event :=
  [.pause 2 true, .article 1 .finished 60 [⟨1, 1, 0⟩] 61, .extra 3 true, .article 1 .failed 40 [⟨1, 0, 1⟩] 0, .complete 1,
   .article 2 .finished 50 [⟨2, 1, 0⟩] 51, .par 2 true, .discard 2, .delete 4]

example : (∀ f ∈ [exampleFile 1 100 0 false, exampleFile 2 100 50 false, exampleFile 3 30 0 true, exampleFile 4 70 0 false], Fresh f) ∧
    AllAllowed (newEntry 1 [exampleFile 1 100 0 false, exampleFile 2 100 50 false, exampleFile 3 30 0 true, exampleFile 4 70 0 false])
      exampleHistory := by
  refine ⟨by simp [Fresh, exampleFile], ?_⟩
  simp [AllAllowed, Allowed, exampleHistory, exampleFile, newEntry, addNewFile, step, setPaused, setExtra, setPar, articleCompleted,
    completeFile, find, change, remove, Nzb.new, updateCompletedStats]

/-! ### Restart -/

/-- The entry after the program was stopped and has loaded the queue: `m_currentServerStats` is set from the loaded statistics
(DiskState.cpp:935), the other current counters are computed by `UpdateCurrentStats`. The other members are those which were saved. -/
def reload (n : Nzb) : Nzb := updateCurrentStats { n with curStats := listOp .set [] n.stats }

theorem addFileStats_fold (l : List File) (n : Nzb) :
    let m := l.foldl addFileStats n
    m.files = n.files ∧ m.stats = n.stats ∧
    m.success = n.success ∧ m.failed = n.failed ∧ m.parSuccess = n.parSuccess ∧ m.parFailed = n.parFailed ∧
    m.successArticles = n.successArticles ∧ m.failedArticles = n.failedArticles ∧
    m.remaining = n.remaining + tally (·.remaining) l ∧
    m.pausedCount = n.pausedCount + tally (fun f => only f.paused 1) l ∧
    m.pausedSize = n.pausedSize + tally (fun f => only f.paused f.remaining) l ∧
    m.extra = n.extra + tally (fun f => only f.extra 1) l ∧
    m.parCount = n.parCount + tally (fun f => only f.par 1) l ∧
    m.curSuccess = n.curSuccess + tally (·.success) l ∧
    m.curFailed = n.curFailed + tally (·.failed) l ∧
    m.parCurSuccess = n.parCurSuccess + tally (fun f => only f.par f.success) l ∧
    m.parCurFailed = n.parCurFailed + tally (fun f => only f.par f.failed) l ∧
    m.curSuccessArticles = n.curSuccessArticles + tally (·.successArticles) l ∧
    m.curFailedArticles = n.curFailedArticles + tally (·.failedArticles) l ∧
    (∀ s, fromServer s m.curStats = fromServer s n.curStats + tally (fun f => fromServer s f.stats) l) ∧
    (∀ s, failedOn s m.curStats = failedOn s n.curStats + tally (fun f => failedOn s f.stats) l) := by
  induction l generalizing n with
  | nil => simp [tally_nil]
  | cons f l ih =>
    have ih := ih (addFileStats n f)
    simp only [List.foldl_cons, tally_cons] at ih ⊢
    obtain ⟨a1, a2, a3, a4, a5, a6, a7, a8, a9, a10, a11, a12, a13, a14, a15, a16, a17, a18, a19, a20, a21⟩ := ih
    refine ⟨a1, a2, a3, a4, a5, a6, a7, a8, ?_, ?_, ?_, ?_, ?_, ?_, ?_, ?_, ?_, ?_, ?_, ?_, ?_⟩ <;>
      (try intro s; have a20 := a20 s; have a21 := a21 s) <;>
      (first
        | rw [a9] | rw [a10] | rw [a11] | rw [a12] | rw [a13] | rw [a14] | rw [a15] | rw [a16] | rw [a17] | rw [a18] | rw [a19]
        | rw [a20] | rw [a21]) <;>
      dsimp only [addFileStats, only] <;> (try simp only [fromServer_add, failedOn_add]) <;> (try split) <;> omega

/-- The counters computed when the queue is loaded are exact, whatever they were before. -/
theorem reload_exact {n : Nzb} (hu : (n.stats.map Stat.server).Nodup) : Exact (reload n) := by
  unfold reload updateCurrentStats
  obtain ⟨a1, a2, a3, a4, a5, a6, a7, a8, a9, a10, a11, a12, a13, a14, a15, a16, a17, a18, a19, a20, a21⟩ :=
    addFileStats_fold n.files { n with
      pausedCount := 0, parCount := 0, remaining := 0, pausedSize := 0,
      curSuccessArticles := n.successArticles, curFailedArticles := n.failedArticles,
      curSuccess := n.success, curFailed := n.failed,
      parCurSuccess := n.parSuccess, parCurFailed := n.parFailed,
      extra := 0, curStats := listOp .set (listOp .set [] n.stats) n.stats }
  dsimp only at *
  have hset : listOp .set (listOp .set [] n.stats) n.stats = n.stats := by
    have h0 : listOp .set [] n.stats = n.stats := by
      have := listOp_set_nil (l := []) (other := n.stats) (by simpa using hu)
      simpa using this
    rw [h0]
    have key : ∀ (a b : List Stat), ((a ++ b).map Stat.server).Nodup → listOp .set (a ++ b) b = a ++ b := by
      intro a b
      induction b generalizing a with
      | nil => intro _; rfl
      | cons x b ih =>
        intro h
        have hx : statOp .set x.server x.success x.failed (a ++ x :: b) = a ++ x :: b := by
          have hxa : x.server ∉ a.map Stat.server := by
            rw [List.map_append, List.nodup_append] at h
            intro hm
            exact h.2.2 _ hm x.server (by simp) rfl
          clear h ih
          induction a with
          | nil => simp [statOp, StatOp.apply]
          | cons y a ih =>
            simp only [List.map_cons, List.mem_cons, not_or] at hxa
            simp only [List.cons_append, statOp]
            rw [if_neg (fun hy => hxa.1 hy.symm), ih hxa.2]
        unfold listOp
        rw [hx]
        have := ih (a ++ [x]) (by simpa using h)
        simpa using this
    have := key [] n.stats (by simpa using hu)
    simpa only [List.nil_append] using this
  generalize List.foldl addFileStats _ n.files = m at *
  constructor <;> (try intro s; have a20 := a20 s; have a21 := a21 s) <;> rw [a1] <;> (try rw [a2]) <;> (try rw [hset] at a20 a21) <;> omega

/-- **Restart.** If the counters of an entry are exact, they are the same after a restart of the program: remaining and paused sizes,
numbers of paused, par2- and extra priority files, downloaded and failed sizes and articles, statistics of the servers. -/
theorem restart_keeps_counters {n : Nzb} (h : Exact n) (hu : (n.stats.map Stat.server).Nodup) :
    (reload n).remaining = n.remaining ∧ (reload n).pausedCount = n.pausedCount ∧ (reload n).pausedSize = n.pausedSize ∧
    (reload n).extra = n.extra ∧ (reload n).parCount = n.parCount ∧ (reload n).curSuccess = n.curSuccess ∧
    (reload n).curFailed = n.curFailed ∧ (reload n).parCurSuccess = n.parCurSuccess ∧ (reload n).parCurFailed = n.parCurFailed ∧
    (reload n).curSuccessArticles = n.curSuccessArticles ∧ (reload n).curFailedArticles = n.curFailedArticles ∧
    (∀ s, fromServer s (reload n).curStats = fromServer s n.curStats ∧ failedOn s (reload n).curStats = failedOn s n.curStats) := by
  have e := reload_exact hu
  have k : (reload n).files = n.files ∧ (reload n).stats = n.stats ∧ (reload n).success = n.success ∧ (reload n).failed = n.failed ∧
      (reload n).parSuccess = n.parSuccess ∧ (reload n).parFailed = n.parFailed ∧ (reload n).successArticles = n.successArticles ∧
      (reload n).failedArticles = n.failedArticles := by
    unfold reload updateCurrentStats
    obtain ⟨a1, a2, a3, a4, a5, a6, a7, a8, _⟩ := addFileStats_fold n.files { n with
      pausedCount := 0, parCount := 0, remaining := 0, pausedSize := 0,
      curSuccessArticles := n.successArticles, curFailedArticles := n.failedArticles,
      curSuccess := n.success, curFailed := n.failed,
      parCurSuccess := n.parSuccess, parCurFailed := n.parFailed,
      extra := 0, curStats := listOp .set (listOp .set [] n.stats) n.stats }
    exact ⟨a1, a2, a3, a4, a5, a6, a7, a8⟩
  obtain ⟨k1, k2, k3, k4, k5, k6, k7, k8⟩ := k
  obtain ⟨e1, e2, e3, e4, e5, e6, e7, e8, e9, e10, e11, e12, e13⟩ := e
  obtain ⟨n1, n2, n3, n4, n5, n6, n7, n8, n9, n10, n11, n12, n13⟩ := h
  rw [k1] at e1 e2 e3 e4 e5 e6 e7 e8 e9 e10 e11
  refine ⟨?_, ?_, ?_, ?_, ?_, ?_, ?_, ?_, ?_, ?_, ?_, ?_⟩
  iterate 11 omega
  intro s
  have e12 := e12 s
  have e13 := e13 s
  have n12 := n12 s
  have n13 := n13 s
  rw [k1, k2] at e12 e13
  omega

/-- A restart at any point of a history changes nothing, and the history may go on. -/
theorem restart_after_history {id : Nat} {files : List File} {es : List Event} (hf : ∀ f ∈ files, Fresh f)
    (ha : AllAllowed (newEntry id files) es) :
    (reload (run (newEntry id files) es)).remaining = (run (newEntry id files) es).remaining ∧
    (reload (run (newEntry id files) es)).curSuccess = (run (newEntry id files) es).curSuccess ∧
    (reload (run (newEntry id files) es)).curFailed = (run (newEntry id files) es).curFailed ∧
    (reload (run (newEntry id files) es)).pausedCount = (run (newEntry id files) es).pausedCount ∧
    (reload (run (newEntry id files) es)).extra = (run (newEntry id files) es).extra := by
  have h := good_run ha (good_newEntry (id := id) hf)
  obtain ⟨r1, r2, r3, r4, r5, r6, r7, _⟩ := restart_keeps_counters h.exact h.servers
  exact ⟨r1, r6, r7, r2, r4⟩

end Verif.Counters
