import Verif.PostJob
/-!
# Lemmas: every turn of a job makes progress
-/
namespace Verif.PostJob

/-- How many par-checks may still come: a quick one, and a full one afterwards. -/
def checks (p : Par) (forceFull parFull : Bool) : Nat :=
  if p.unchecked then (if forceFull then 1 else 3)
  else if p = .success ∧ parFull = false then 2 else 0

/-- Steps which are left before the par-check. -/
def before (p : Par) (pars : Bool) : Nat :=
  match p with
  | .none => if pars then 1 else 3
  | .skipped => 2
  | _ => 0

def b2n (b : Bool) : Nat := if b then 1 else 0

/-- A number which gets smaller with every turn. -/
def measure (j : Job) : Nat :=
  4 * checks j.nzb.par j.post.forceFull j.nzb.parFull + 8 * b2n (j.nzb.unpack == .none) +
  4 * (b2n (j.nzb.parRename == .none) + j.nzb.disk.remPars) +
  4 * b2n (j.nzb.rarRename == .none) + 4 * b2n (j.nzb.cleanup == .none) +
  4 * b2n (j.nzb.move == .none) + before j.nzb.par j.nzb.disk.pars

/-- What holds for a job which waits for its next stage. -/
structure Inv (o : Opts) (j : Job) : Prop where
  queued : j.post.stage = .queued
  idle : j.post.working = false
  alive : j.post.cancelled = false
  noReq : j.post.requestPar = false
  last : j.post.unpackTried = true → j.post.lastUnpack ≠ .none
  due : (j.post.forceFull = true ∨ j.post.unpackTried = true) → j.nzb.par.unchecked = true →
    j.nzb.par = .none ∧ j.nzb.disk.pars = true ∧ j.nzb.deleted = false ∧
    (j.nzb.parRename ≠ .none ∨ o.parRename = false)
  manual : o.parCheck = .manual → j.nzb.par ≠ .none ∧
    (j.nzb.par = .success → j.nzb.parFull = true)

/-- The result of a turn is progress. -/
def Good (o : Opts) (j : Job) : After → Prop
  | .busy _ => False
  | .again j' => Inv o j' ∧ measure j' < measure j
  | .left _ => True

theorem b2n_le (b : Bool) : b2n b ≤ 1 := by cases b <;> decide
theorem before_le (p : Par) (b : Bool) : before p b ≤ 3 := by
  cases p <;> cases b <;> decide

theorem checks_le (p : Par) (f g : Bool) : checks p f g ≤ 3 := by
  cases p <;> cases f <;> cases g <;> decide

theorem measure_le (j : Job) : measure j ≤ 39 + 4 * j.nzb.disk.remPars := by
  unfold measure
  have := checks_le j.nzb.par j.post.forceFull j.nzb.parFull
  have := before_le j.nzb.par j.nzb.disk.pars
  have := b2n_le (j.nzb.unpack == .none); have := b2n_le (j.nzb.parRename == .none)
  have := b2n_le (j.nzb.rarRename == .none); have := b2n_le (j.nzb.cleanup == .none)
  have := b2n_le (j.nzb.move == .none)
  omega

theorem checkRequestPar_noReq (o : Opts) (j : Job) (h : j.post.requestPar = false) :
    checkRequestPar o j = j := by
  unfold checkRequestPar
  rw [if_neg (fun hh => by rw [h] at hh; exact nomatch hh.1),
    if_neg (fun hh => by rw [h] at hh; exact nomatch hh.1)]

theorem cleanupJob_idle (j : Job) (h : j.post.working = false) :
    cleanupJob j = .left j ∨
    (j.post.stage ≠ .finished ∧ j.post.cancelled = false ∧
      cleanupJob j = .again { j with post := { j.post with stage := .queued } }) := by
  unfold cleanupJob
  rw [if_neg (by rw [h]; exact nofun)]
  by_cases hc : j.post.stage = .finished ∨ j.post.cancelled = true
  · exact Or.inl (if_pos hc)
  · refine Or.inr ⟨fun hh => hc (Or.inl hh), ?_, if_neg hc⟩
    cases hh : j.post.cancelled
    · rfl
    · exact absurd (Or.inr hh) hc

theorem good_idle {o : Opts} {j0 : Job} (j : Job) (hw : j.post.working = false)
    (hI : j.post.stage ≠ .finished → j.post.cancelled = false →
      Inv o { j with post := { j.post with stage := .queued } } ∧ measure j < measure j0) :
    Good o j0 (cleanupJob j) := by
  rcases cleanupJob_idle j hw with h | ⟨hs, hc, h⟩
  · rw [h]; trivial
  · rw [h]; exact ⟨(hI hs hc).1, (hI hs hc).2⟩

/-- The common end of the cases without a request for a par-check. -/
theorem good_plain {o : Opts} {j0 j : Job} (hw : j.post.working = false)
    (hr : j.post.requestPar = false)
    (hI : j.post.stage ≠ .finished → j.post.cancelled = false →
      Inv o { j with post := { j.post with stage := .queued } } ∧ measure j < measure j0) :
    Good o j0 (cleanupJob (checkRequestPar o j)) := by
  rw [checkRequestPar_noReq o j hr]
  exact good_idle j hw hI

/-- The common end of the cases with a request for a par-check of a job which wasn't checked. -/
theorem good_request {o : Opts} {j0 j : Job} (hr : j.post.requestPar = true)
    (hu : j.nzb.par.unchecked = true)
    (hl : j.post.unpackTried = true → j.post.lastUnpack ≠ .none)
    (hd : j.post.unpackTried = true → j.nzb.disk.pars = true ∧ j.nzb.deleted = false ∧
      (j.nzb.parRename ≠ .none ∨ o.parRename = false))
    (hm : measure { nzb := { j.nzb with par := .none }, post := { j.post with forceFull := false } }
      < measure j0)
    (hm2 : measure { nzb := { j.nzb with par := .manual }, post := j.post } < measure j0) :
    Good o j0 (cleanupJob (checkRequestPar o j)) := by
  unfold checkRequestPar
  by_cases ho : o.parCheck = .manual
  · rw [if_neg (fun h => h.2.2 ho), if_pos ⟨hr, hu, ho⟩]
    refine good_idle _ rfl (fun hs hc => ⟨⟨rfl, rfl, hc, rfl, hl, ?_, ?_⟩, hm2⟩)
    · intro _ h2; exact nomatch h2
    · intro _; exact ⟨nofun, nofun⟩
  · rw [if_pos ⟨hr, Or.inl hu, ho⟩]
    refine good_idle _ rfl (fun hs hc => ⟨⟨rfl, rfl, hc, rfl, hl, ?_, ?_⟩, ?_⟩)
    · intro h1 _
      refine ⟨rfl, hd ?_⟩
      rcases h1 with h1 | h1
      · dsimp only at h1; rw [hu] at h1; exact nomatch h1
      · exact h1
    · intro hh; exact absurd hh ho
    · rw [hu]; exact hm

/-! ## The stages -/

/-- The job while the stage is running. -/
def inStage (s : Stage) (need c : Bool) (j : Job) : Job :=
  { j with post := { j.post with working := true, stage := s, needPar := need, cancelled := c } }

theorem rep_pos {w : Work} {d : Disk} (h : (!w.renamed && w.parDamaged && decide (0 < d.remPars) &&
    w.resume) = true) : 0 < d.remPars := by
  simp only [Bool.and_eq_true, decide_eq_true_eq] at h
  exact h.1.2

/-- The par-renaming. -/
theorem good_parRename {o : Opts} {w : Work} {j : Job} (hi : Inv o j)
    (h1 : j.nzb.parRename = .none) (h3 : o.parRename = true) (c : Bool) :
    Good o j (cleanupJob (checkRequestPar o (finishParRename w
      (inStage .parRenaming j.post.needPar c j)))) := by
  have hff : j.nzb.par.unchecked = true → j.post.forceFull = false ∧ j.post.unpackTried = false := by
    intro hu
    constructor
    · cases hh : j.post.forceFull
      · rfl
      · rcases (hi.due (Or.inl hh) hu).2.2.2 with h | h
        · exact absurd h1 h
        · rw [h3] at h; exact nomatch h
    · cases hh : j.post.unpackTried
      · rfl
      · rcases (hi.due (Or.inr hh) hu).2.2.2 with h | h
        · exact absurd h1 h
        · rw [h3] at h; exact nomatch h
  have hm : ∀ (p : Par) (f : Bool) (d : Disk) (r : Ren),
      b2n (r == .none) + d.remPars < 1 + j.nzb.disk.remPars →
      (p = j.nzb.par ∧ f = j.post.forceFull ∨
        j.nzb.par.unchecked = true ∧ (p = .none ∧ f = false ∨ p = .manual)) →
      measure ⟨{ j.nzb with parRename := r, disk := d, par := p },
        { j.post with forceFull := f }⟩ < measure j := by
    intro p f d r hlt hp
    have hc : checks p f j.nzb.parFull ≤ checks j.nzb.par j.post.forceFull j.nzb.parFull := by
      rcases hp with ⟨rfl, rfl⟩ | ⟨hu, ⟨rfl, rfl⟩ | rfl⟩
      · exact Nat.le_refl _
      · unfold checks
        rw [if_pos hu, (hff hu).1]
        exact Nat.le_refl _
      · exact Nat.zero_le _
    have hb := before_le p d.pars
    unfold measure
    rw [show b2n (j.nzb.parRename == .none) = 1 by rw [h1]; rfl]
    dsimp only
    omega
  have hlt : b2n ((finishParRename w
      (inStage .parRenaming j.post.needPar c j)).nzb.parRename
        == .none) + (finishParRename w
      (inStage .parRenaming j.post.needPar c j)).nzb.disk.remPars
      < 1 + j.nzb.disk.remPars := by
    unfold finishParRename newDisk inStage
    dsimp only
    by_cases hrep : (!w.renamed && w.parDamaged && decide (0 < j.nzb.disk.remPars) && w.resume) = true
    · have := rep_pos hrep
      rw [if_pos hrep, if_pos hrep]
      simp [b2n]
      omega
    · rw [if_neg hrep, if_neg hrep]
      have : b2n ((if w.renamed = true then Ren.success else Ren.nothing) == Ren.none) = 0 := by
        cases w.renamed <;> rfl
      rw [this]
      dsimp only
      omega
  by_cases hq : (w.missed && j.nzb.par.unchecked) = true
  · have hu : j.nzb.par.unchecked = true := by
      rw [Bool.and_eq_true] at hq; exact hq.2
    refine good_request ?_ hu hi.last ?_ ?_ ?_
    · unfold finishParRename inStage
      dsimp only
      rw [hq, Bool.or_true]
    · intro h
      have : j.post.unpackTried = true := h
      rw [(hff hu).2] at this; exact nomatch this
    · exact hm .none false _ _ hlt (Or.inr ⟨hu, Or.inl ⟨rfl, rfl⟩⟩)
    · exact hm .manual j.post.forceFull _ _ hlt (Or.inr ⟨hu, Or.inr rfl⟩)
  · refine good_plain rfl ?_ ?_
    · unfold finishParRename inStage
      dsimp only
      rw [hi.noReq, Bool.false_or]
      exact Bool.eq_false_iff.mpr hq
    · intro hs hc
      refine ⟨⟨rfl, rfl, hc, ?_, hi.last, ?_, hi.manual⟩, ?_⟩
      · unfold finishParRename inStage
        dsimp only
        rw [hi.noReq, Bool.false_or]
        exact Bool.eq_false_iff.mpr hq
      · intro h hu
        have hu' : j.nzb.par.unchecked = true := hu
        have h' : j.post.forceFull = true ∨ j.post.unpackTried = true := h
        rw [(hff hu').1, (hff hu').2] at h'
        rcases h' with h' | h' <;> exact nomatch h'
      · exact hm j.nzb.par j.post.forceFull _ _ hlt (Or.inl ⟨rfl, rfl⟩)

theorem newDisk_le (w : Work) (d : Disk) : (newDisk w d).remPars ≤ d.remPars := Nat.sub_le _ _

/-- After the place of the par-check in `startJob` no par-check is due. -/
theorem calm {o : Opts} {j : Job} (hi : Inv o j) (hp : ¬(j.nzb.par = .none ∧ j.nzb.deleted = false))
    (h : j.post.forceFull = true ∨ j.post.unpackTried = true) : j.nzb.par.unchecked = false := by
  cases hu : j.nzb.par.unchecked
  · rfl
  · exact absurd ⟨(hi.due h hu).1, (hi.due h hu).2.2.1⟩ hp

/-- A stage which sets another status and changes only files. -/
theorem good_quiet {o : Opts} {j : Job} (hi : Inv o j)
    (hp : ¬(j.nzb.par = .none ∧ j.nzb.deleted = false)) (n : Nzb) (c : Bool) (s : Stage)
    (e1 : n.par = j.nzb.par) (e2 : n.parFull = j.nzb.parFull)
    (hm : 8 * b2n (n.unpack == .none) + 4 * (b2n (n.parRename == .none) + n.disk.remPars) +
      4 * b2n (n.rarRename == .none) + 4 * b2n (n.cleanup == .none) + 4 * b2n (n.move == .none) + 4 ≤
      8 * b2n (j.nzb.unpack == .none) + 4 * (b2n (j.nzb.parRename == .none) + j.nzb.disk.remPars) +
      4 * b2n (j.nzb.rarRename == .none) + 4 * b2n (j.nzb.cleanup == .none) +
      4 * b2n (j.nzb.move == .none)) :
    Good o j (cleanupJob (checkRequestPar o
      ⟨n, { j.post with working := false, stage := s, cancelled := c }⟩)) := by
  refine good_plain rfl hi.noReq (fun hs hc => ⟨⟨rfl, rfl, hc, hi.noReq, hi.last, ?_, ?_⟩, ?_⟩)
  · intro h hu
    have hu' : n.par.unchecked = true := hu
    rw [e1, calm hi hp h] at hu'
    exact nomatch hu'
  · intro ho
    show n.par ≠ .none ∧ (n.par = .success → n.parFull = true)
    rw [e1, e2]
    exact hi.manual ho
  · unfold measure
    dsimp only
    rw [e1, e2]
    have := before_le j.nzb.par n.disk.pars
    omega

theorem execute_full {force stopped : Bool} {r1 r2 : CheckRun} :
    (execute false force stopped r1 r2).1 = .failed ∨ (execute false force stopped r1 r2).2 = true := by
  unfold execute
  rw [if_neg (fun h => nomatch h.2.1)]
  cases r1 with
  | none => exact Or.inl rfl
  | some r => exact Or.inr rfl

/-- The par-check. -/
theorem good_check {o : Opts} {w : Work} {j : Job} (hi : Inv o j) (h1 : j.nzb.par = .none) (c : Bool) :
    Good o j (cleanupJob (checkRequestPar o (finishCheck o w (inStage .loadingPars false c j)))) := by
  have hu : j.nzb.par.unchecked = true := by rw [h1]; rfl
  have hpar : (finishCheck o w (inStage .loadingPars false c j)).nzb.par.unchecked = false := by
    unfold finishCheck
    dsimp only
    split
    · rfl
    · split <;> rfl
  refine good_plain rfl hi.noReq (fun hs hc => ⟨⟨rfl, rfl, hc, hi.noReq, hi.last, ?_, ?_⟩, ?_⟩)
  · intro _ h
    exact absurd (hpar.symm.trans h) nofun
  · intro ho
    exact absurd h1 (hi.manual ho).1
  · have hcd : checks (finishCheck o w (inStage .loadingPars false c j)).nzb.par j.post.forceFull
        (execute (o.parQuick && !j.post.forceFull) j.post.forceRepair w.stopped w.check1 w.check2).2
        < checks j.nzb.par j.post.forceFull j.nzb.parFull := by
      cases hf : j.post.forceFull
      · rw [h1]
        unfold checks
        rw [if_neg (by rw [hpar]; exact nofun), if_pos (show Par.none.unchecked = true from rfl),
          if_neg (show ¬(false = true) from nofun)]
        split <;> omega
      · rw [h1]
        have hx := @execute_full j.post.forceRepair w.stopped w.check1 w.check2
        rw [Bool.not_true, Bool.and_false]
        unfold checks
        rw [if_neg (by rw [hpar]; exact nofun), if_pos (show Par.none.unchecked = true from rfl),
          if_pos rfl]
        rcases hx with hx | hx
        · have : (finishCheck o w (inStage .loadingPars false c j)).nzb.par = .failure := by
            unfold finishCheck inStage
            dsimp only
            rw [hf, Bool.not_true, Bool.and_false, hx]
            rfl
          rw [this, if_neg (fun h => nomatch h.1)]
          decide
        · rw [hx, if_neg (fun h => nomatch h.2)]
          decide
    have hd := newDisk_le w j.nzb.disk
    have hb := before_le (finishCheck o w (inStage .loadingPars false c j)).nzb.par (newDisk w j.nzb.disk).pars
    unfold measure
    show 4 * checks (finishCheck o w (inStage .loadingPars false c j)).nzb.par j.post.forceFull
        (execute (o.parQuick && !j.post.forceFull) j.post.forceRepair w.stopped w.check1 w.check2).2 +
      8 * b2n (j.nzb.unpack == .none) +
      4 * (b2n (j.nzb.parRename == .none) + (newDisk w j.nzb.disk).remPars) +
      4 * b2n (j.nzb.rarRename == .none) + 4 * b2n (j.nzb.cleanup == .none) +
      4 * b2n (j.nzb.move == .none) + before (finishCheck o w (inStage .loadingPars false c j)).nzb.par (newDisk w j.nzb.disk).pars < _
    omega

theorem unpackFailure_ne (u : UnpackWork) : unpackFailure u ≠ .none := by
  unfold unpackFailure
  split
  · exact nofun
  · split <;> exact nofun

/-- The unpack stage with another status than "none" as result. -/
theorem good_status {o : Opts} {j : Job} (hi : Inv o j)
    (hp : ¬(j.nzb.par = .none ∧ j.nzb.deleted = false)) (h1 : j.nzb.unpack = .none) (c : Bool)
    (s : Stage) (x : Unp) (hx : x ≠ .none) (need : Bool) :
    Good o j (cleanupJob (checkRequestPar o ⟨{ j.nzb with unpack := x },
      { j.post with working := false, stage := s, cancelled := c, needPar := need }⟩)) := by
  have := good_quiet (o := o) (j := { j with post := { j.post with needPar := need } })
    ⟨hi.queued, hi.idle, hi.alive, hi.noReq, hi.last, hi.due, hi.manual⟩ hp
    { j.nzb with unpack := x } c s rfl rfl (by
      dsimp only
      rw [show b2n (j.nzb.unpack == .none) = 1 by rw [h1]; rfl,
        show b2n (x == .none) = 0 by cases x <;> first | rfl | exact absurd rfl hx]
      omega)
  exact this

/-- The unpack stage which requests the par-check of an unchecked download. -/
theorem good_unpackRequest {o : Opts} {j : Job} (hi : Inv o j)
    (hp : ¬(j.nzb.par = .none ∧ j.nzb.deleted = false)) (hd : j.nzb.deleted = false)
    (hr : j.nzb.parRename ≠ .none ∨ o.parRename = false) (hpars : j.nzb.disk.pars = true)
    (hu : j.nzb.par.unchecked = true) (p : Post) (hreq : p.requestPar = true)
    (hff : p.forceFull = j.post.forceFull) (hl : p.lastUnpack ≠ .none) :
    Good o j (cleanupJob (checkRequestPar o ⟨j.nzb, p⟩)) := by
  have hs : j.nzb.par = .skipped := by
    cases h : j.nzb.par
    · exact absurd ⟨h, hd⟩ hp
    · rfl
    all_goals rw [h] at hu; exact nomatch hu
  have hf : j.post.forceFull = false := by
    cases h : j.post.forceFull
    · rfl
    · have := calm hi hp (Or.inl h); rw [hu] at this; exact nomatch this
  refine good_request (j := ⟨j.nzb, p⟩) hreq hu (fun _ => hl) (fun _ => ⟨hpars, hd, hr⟩) ?_ ?_
  · unfold measure
    dsimp only
    rw [hs, hpars, hf]
    simp only [checks, before, Par.unchecked]
    simp
  · unfold measure
    dsimp only
    rw [hs, hff, hf]
    simp only [checks, before, Par.unchecked]
    simp
    omega

/-- The requests of `startJob`. -/
theorem good_skipped {o : Opts} {j : Job} (hi : Inv o j)
    (hp : ¬(j.nzb.par = .none ∧ j.nzb.deleted = false)) (hs : j.nzb.par = .skipped)
    (hpars : j.nzb.disk.pars = true) :
    Good o j (cleanupJob (checkRequestPar o ⟨j.nzb, { j.post with requestPar := true }⟩)) := by
  have hu : j.nzb.par.unchecked = true := by rw [hs]; rfl
  have hf : j.post.forceFull = false := by
    cases h : j.post.forceFull
    · rfl
    · have := calm hi hp (Or.inl h); rw [hu] at this; exact nomatch this
  refine good_request (j := ⟨j.nzb, { j.post with requestPar := true }⟩) rfl hu hi.last ?_ ?_ ?_
  · intro h
    have := calm hi hp (Or.inr h); rw [hu] at this; exact nomatch this
  · unfold measure
    dsimp only
    rw [hs, hpars, hf]
    simp only [checks, before, Par.unchecked]
    simp
  · unfold measure
    dsimp only
    rw [hs, hf]
    simp only [checks, before, Par.unchecked]
    simp
    omega

/-- The unpack stage which requests the second par-check. -/
theorem good_unpackSecond {o : Opts} {j : Job} (hi : Inv o j)
    (hd : j.nzb.deleted = false)
    (hr : j.nzb.parRename ≠ .none ∨ o.parRename = false) (hpars : j.nzb.disk.pars = true)
    (hs : j.nzb.par = .success) (hfull : j.nzb.parFull = false) (p : Post)
    (hreq : p.requestPar = true) (hforce : p.forceRepair = true) (hl : p.lastUnpack ≠ .none) :
    Good o j (cleanupJob (checkRequestPar o ⟨j.nzb, p⟩)) := by
  have ho : o.parCheck ≠ .manual := by
    intro ho
    have := (hi.manual ho).2 hs
    rw [hfull] at this; exact nomatch this
  unfold checkRequestPar
  rw [if_pos ⟨hreq, Or.inr ⟨hforce, hfull⟩, ho⟩]
  refine good_idle _ rfl (fun _ hc => ⟨⟨rfl, rfl, hc, rfl, fun _ => hl, ?_, fun h => absurd h ho⟩, ?_⟩)
  · intro _ _
    exact ⟨rfl, hpars, hd, hr⟩
  · unfold measure
    dsimp only
    rw [hs, hpars, hfull]
    simp only [checks, before, Par.unchecked]
    simp
    omega

/-- The unpack stage. -/
theorem good_unpack {o : Opts} {w : Work} {j : Job} (hi : Inv o j)
    (hp : ¬(j.nzb.par = .none ∧ j.nzb.deleted = false)) (hun : toUnpack j.nzb = true)
    (hpf : parFailed j.nzb = false)
    (hr : ¬(j.nzb.parRename = .none ∧ j.nzb.deleted = false ∧ o.parRename = true)) (c : Bool) :
    Good o j (cleanupJob (checkRequestPar o (finishUnpack o w
      (inStage .unpacking j.post.needPar c j)))) := by
  simp only [toUnpack, Bool.and_eq_true, beq_iff_eq, Bool.not_eq_true'] at hun
  obtain ⟨⟨hw, h1⟩, hd⟩ := hun
  have hr' : j.nzb.parRename ≠ .none ∨ o.parRename = false := by
    by_cases h : j.nzb.parRename = .none
    · refine Or.inr ?_
      cases h' : o.parRename
      · rfl
      · exact absurd ⟨h, hd, h'⟩ hr
    · exact Or.inl h
  suffices h : ∀ x, unpackRun o w (inStage .unpacking j.post.needPar c j) = x →
      Good o j (cleanupJob (checkRequestPar o ⟨x.nzb, { x.post with working := false }⟩)) from
    h _ rfl
  intro x hx
  unfold unpackRun at hx
  generalize hk : inStage .unpacking j.post.needPar c j = k at hx
  have en : k.nzb = j.nzb := by rw [← hk]; rfl
  dsimp only at hx
  by_cases ht : (k.post.unpackTried && !k.post.parRepaired &&
      (k.nzb.password || !o.passFile || k.post.passTried)) = true
  · rw [if_pos ht] at hx
    simp only [Bool.and_eq_true] at ht
    subst hk
    subst hx
    exact good_status hi hp h1 c _ _ (hi.last ht.1.1) _
  · rw [if_neg ht] at hx
    by_cases hf : (k.nzb.want && w.unpack.hasFiles) = true
    · rw [if_pos hf] at hx
      unfold unpackCompleted at hx
      dsimp only at hx
      by_cases hok : (w.unpack.ok && w.unpack.movedOk) = true
      · rw [if_pos hok] at hx
        subst hk
        subst hx
        refine good_quiet (o := o) (j := j) hi hp _ c _ ?_ ?_ ?_
        · rfl
        · rfl
        · have := newDisk_le w j.nzb.disk
          have := b2n_le ((if o.parRename = true then Ren.none else j.nzb.parRename) == Ren.none)
          dsimp only [inStage]
          rw [show b2n (j.nzb.unpack == .none) = 1 by rw [h1]; rfl,
            show b2n (Unp.success == .none) = 0 by rfl]
          omega
      · rw [if_neg hok] at hx
        by_cases hc2 : (!w.unpack.ok && (k.nzb.par.unchecked || !k.nzb.parFull) &&
            !w.unpack.startErr && !w.unpack.spaceErr && !w.unpack.passErr && !w.unpack.stopped &&
            k.nzb.disk.pars) = true
        · rw [if_pos hc2] at hx
          simp only [Bool.and_eq_true, Bool.or_eq_true, Bool.not_eq_true', en] at hc2
          subst hk
          subst hx
          by_cases hu : j.nzb.par.unchecked = true
          · exact good_unpackRequest hi hp hd hr' hc2.2 hu _ rfl rfl (unpackFailure_ne _)
          · have hfull : j.nzb.parFull = false := by
              rcases hc2.1.1.1.1.1.2 with h | h
              · exact absurd h hu
              · exact h
            have hs : j.nzb.par = .success := by
              simp only [parFailed] at hpf
              cases h : j.nzb.par <;> rw [h] at hpf hu <;>
                first | rfl | exact absurd rfl hu | exact nomatch hpf
            refine good_unpackSecond hi hd hr' hc2.2 hs hfull _ rfl ?_ (unpackFailure_ne _)
            show (_ || !j.nzb.par.unchecked) = true
            rw [Bool.eq_false_iff.mpr hu, Bool.not_false, Bool.or_true]
        · rw [if_neg hc2] at hx
          subst hk
          subst hx
          exact good_status hi hp h1 c _ _ (unpackFailure_ne _) _
    · rw [if_neg hf, if_pos (by rw [en]; exact hw)] at hx
      by_cases hc2 : k.nzb.par.unchecked = true ∧
          (k.nzb.parRename = .none ∨ k.nzb.parRename = .skipped) ∧ k.nzb.disk.pars = true
      · rw [if_pos hc2] at hx
        rw [en] at hc2
        subst hk
        subst hx
        exact good_unpackRequest hi hp hd hr' hc2.2.2 hc2.1 _ rfl rfl
          (unpackFailure_ne { w.unpack with spaceErr := false, passErr := false,
                                            decryptErr := false, listTried := false })
      · rw [if_neg hc2] at hx
        by_cases hh : w.unpack.hidden = true
        · rw [if_pos hh] at hx
          subst hk
          subst hx
          exact good_status hi hp h1 c _ .failure nofun _
        · rw [if_neg hh] at hx
          subst hk
          subst hx
          exact good_status hi hp h1 c _ .skipped nofun _

theorem cancelJob_eq (w : Work) (s : Stage) (need : Bool) (j : Job) (hc : j.post.cancelled = false) :
    cancelJob w { j with post := { j.post with working := true, stage := s, needPar := need } } =
    inStage s need w.cancel j := by
  unfold cancelJob inStage
  cases h : w.cancel
  · rw [if_neg nofun]
    dsimp only
    rw [hc]
  · rw [if_pos rfl]

/-- A turn in which a stage is entered. -/
theorem turn_stage {o : Opts} {j k : Job} {w : Work} {s : Stage} {need : Bool}
    (hc : k.post.cancelled = false)
    (hs : startJob o true j =
      { k with post := { k.post with working := true, stage := s, needPar := need } }) :
    turn o w j = cleanupJob (checkRequestPar o (finish o w (inStage s need w.cancel k))) := by
  unfold turn
  rw [hs]
  dsimp only
  rw [if_pos rfl]
  have := cancelJob_eq w s need k hc
  dsimp only at this
  rw [this]

/-- A turn in which no stage is entered. -/
theorem turn_idle {o : Opts} {j k : Job} {w : Work} (hk : k.post.working = false)
    (hs : startJob o true j = k) : turn o w j = cleanupJob (checkRequestPar o k) := by
  unfold turn
  rw [hs]
  dsimp only
  rw [if_neg (by rw [hk]; exact nofun)]

/-- Every turn makes progress. -/
theorem good_turn {o : Opts} {j : Job} (hi : Inv o j) (w : Work) : Good o j (turn o w j) := by
  by_cases c1 : j.nzb.parRename = .none ∧ j.nzb.deleted = false ∧ o.parRename = true
  · rw [turn_stage (k := j) (s := .parRenaming) (need := j.post.needPar) hi.alive
      (by unfold startJob; exact if_pos c1)]
    exact good_parRename hi c1.1 c1.2.2 _
  by_cases c2 : j.nzb.par = .none ∧ j.nzb.deleted = false
  · by_cases c3 : j.nzb.disk.pars = true
    · rw [turn_stage (k := j) (s := .loadingPars) (need := false) hi.alive
        (by
          unfold startJob
          dsimp only
          rw [if_neg c1, if_pos c2, if_pos c3, if_neg nofun]
          rfl)]
      exact good_check hi c2.1 _
    · rw [turn_idle (k := ⟨{ j.nzb with par := .skipped }, j.post⟩) hi.idle
        (by
          unfold startJob
          dsimp only
          rw [if_neg c1, if_pos c2, if_neg c3])]
      have hno : ¬(j.post.forceFull = true ∨ j.post.unpackTried = true) := by
        intro h
        exact c3 (hi.due h (by rw [c2.1]; rfl)).2.1
      refine good_plain hi.idle hi.noReq (fun hs hc => ⟨⟨rfl, hi.idle, hc, hi.noReq, hi.last, ?_, ?_⟩, ?_⟩)
      · intro h _; exact absurd h hno
      · intro _; exact ⟨nofun, nofun⟩
      · unfold measure
        dsimp only
        rw [c2.1, Bool.eq_false_iff.mpr c3]
        simp only [checks, before, Par.unchecked]
        simp
  by_cases c4 : hopeless o j.nzb = true
  · rw [turn_idle (k := ⟨{ j.nzb with par := .failure }, j.post⟩) hi.idle
        (by
          unfold startJob
          dsimp only
          rw [if_neg c1, if_neg c2, if_pos c4])]
    refine good_plain hi.idle hi.noReq (fun hs hc => ⟨⟨rfl, hi.idle, hc, hi.noReq, hi.last, ?_, ?_⟩, ?_⟩)
    · intro _ h; exact nomatch h
    · intro _; exact ⟨nofun, nofun⟩
    · have hsk : j.nzb.par = .skipped := by
        simp only [hopeless, Bool.and_eq_true, beq_iff_eq] at c4
        exact c4.1.1
      unfold measure
      dsimp only
      rw [hsk]
      simp only [checks, before, Par.unchecked]
      simp
      omega
  by_cases c5 : j.nzb.par = .skipped ∧ j.nzb.disk.damaged = true ∧ j.nzb.disk.pars = true
  · rw [turn_idle (k := ⟨j.nzb, { j.post with requestPar := true }⟩) hi.idle
        (by
          unfold startJob
          dsimp only
          rw [if_neg c1, if_neg c2, if_neg c4, if_pos c5])]
    exact good_skipped hi c2 c5.1 c5.2.2
  by_cases c6 : j.nzb.rarRename = .none ∧ toUnpack j.nzb = true ∧ o.rarRename = true
  · rw [turn_stage (k := j) (s := .rarRenaming) (need := j.post.needPar) hi.alive
      (by
        unfold startJob
        dsimp only
        rw [if_neg c1, if_neg c2, if_neg c4, if_neg c5, if_pos c6]
        rfl)]
    refine good_quiet hi c2 _ _ _ rfl rfl ?_
    have := newDisk_le w j.nzb.disk
    show 8 * b2n (j.nzb.unpack == .none) + 4 * (b2n (j.nzb.parRename == .none) +
      (newDisk w j.nzb.disk).remPars) +
      4 * b2n ((if w.renamed = true then Ren.success else Ren.nothing) == .none) +
      4 * b2n (j.nzb.cleanup == .none) + 4 * b2n (j.nzb.move == .none) + 4 ≤ _
    rw [show b2n (j.nzb.rarRename == .none) = 1 by rw [c6.1]; rfl,
      show b2n ((if w.renamed = true then Ren.success else Ren.nothing) == .none) = 0 by
        cases w.renamed <;> rfl]
    omega
  by_cases c7 : j.nzb.par = .skipped ∧ j.nzb.deleted = false ∧ o.parCheck = .auto ∧
      j.nzb.disk.archives = false ∧ j.nzb.disk.pars = true
  · rw [turn_idle (k := ⟨j.nzb, { j.post with requestPar := true }⟩) hi.idle
        (by
          unfold startJob
          dsimp only
          rw [if_neg c1, if_neg c2, if_neg c4, if_neg c5, if_neg c6, if_pos c7])]
    exact good_skipped hi c2 c7.1 c7.2.2.2.2
  have hs : startJob o true j = startLast o j := by
    unfold startJob
    dsimp only
    rw [if_neg c1, if_neg c2, if_neg c4, if_neg c5, if_neg c6, if_neg c7]
  unfold startLast at hs
  dsimp only at hs
  by_cases c8 : (toUnpack j.nzb && !parFailed j.nzb) = true
  · rw [if_pos c8] at hs
    rw [turn_stage (k := j) (s := .unpacking) (need := j.post.needPar) hi.alive (hs.trans rfl)]
    simp only [Bool.and_eq_true, Bool.not_eq_true'] at c8
    exact good_unpack hi c2 c8.1 c8.2 c1 _
  rw [if_neg c8] at hs
  -- the job with the status of unpack set to "skipped"
  obtain ⟨k, hk, k1, k2, k3, k4, k5, k6, k7, k8, k9⟩ : ∃ k : Job,
      (if toUnpack j.nzb = true then { j with nzb := { j.nzb with unpack := .skipped } } else j) = k ∧
      k.post = j.post ∧ k.nzb.par = j.nzb.par ∧ k.nzb.parFull = j.nzb.parFull ∧
      k.nzb.parRename = j.nzb.parRename ∧ k.nzb.rarRename = j.nzb.rarRename ∧
      k.nzb.cleanup = j.nzb.cleanup ∧ k.nzb.move = j.nzb.move ∧ k.nzb.disk = j.nzb.disk ∧
      b2n (k.nzb.unpack == .none) ≤ b2n (j.nzb.unpack == .none) := by
    refine ⟨_, rfl, ?_⟩
    split
    · exact ⟨rfl, rfl, rfl, rfl, rfl, rfl, rfl, rfl, Nat.zero_le _⟩
    · exact ⟨rfl, rfl, rfl, rfl, rfl, rfl, rfl, rfl, Nat.le_refl _⟩
  rw [hk] at hs
  have hd := newDisk_le w k.nzb.disk
  rw [k8] at hd
  have hal : k.post.cancelled = false := by rw [k1]; exact hi.alive
  by_cases c9 : toCleanup o j.nzb = true
  · rw [if_pos c9] at hs
    rw [turn_stage (k := k) (s := .cleaningUp) (need := k.post.needPar) hal (hs.trans rfl)]
    have hcl : j.nzb.cleanup = .none := by
      simp only [toCleanup, Bool.and_eq_true, beq_iff_eq] at c9
      exact c9.1.1.2
    have := good_quiet hi c2 { k.nzb with cleanup := if w.ok then .success else .failure
                                          disk := newDisk w k.nzb.disk } w.cancel .cleaningUp k2 k3 (by
      dsimp only
      rw [k4, k5, k7, k8, show b2n (j.nzb.cleanup == .none) = 1 by rw [hcl]; rfl,
        show b2n ((if w.ok = true then Res.success else Res.failure) == .none) = 0 by
          cases w.ok <;> rfl]
      omega)
    rw [← k1] at this
    exact this
  rw [if_neg c9] at hs
  by_cases c10 : toMove j.nzb = true
  · rw [if_pos c10] at hs
    rw [turn_stage (k := k) (s := .moving) (need := k.post.needPar) hal (hs.trans rfl)]
    have hmv : j.nzb.move = .none := by
      simp only [toMove, Bool.and_eq_true, beq_iff_eq] at c10
      exact c10.1.1.1.1.1.1.1.1.2
    have := good_quiet hi c2 { k.nzb with move := if w.ok then .success else .failure
                                          disk := newDisk w k.nzb.disk } w.cancel .moving k2 k3 (by
      dsimp only
      rw [k4, k5, k6, k8, show b2n (j.nzb.move == .none) = 1 by rw [hmv]; rfl,
        show b2n ((if w.ok = true then Res.success else Res.failure) == .none) = 0 by
          cases w.ok <;> rfl]
      omega)
    rw [← k1] at this
    exact this
  rw [if_neg c10] at hs
  rw [turn_stage (k := k) (s := .executingScript) (need := k.post.needPar) hal (hs.trans rfl)]
  have hfin : (checkRequestPar o (finishScript w (inStage .executingScript k.post.needPar w.cancel k))).post.working
      = false ∧ (checkRequestPar o (finishScript w
        (inStage .executingScript k.post.needPar w.cancel k))).post.stage = .finished := by
    unfold checkRequestPar
    split
    · exact ⟨rfl, rfl⟩
    · split
      · refine ⟨rfl, ?_⟩
        show (if _ then Stage.finished else Stage.finished) = .finished
        split <;> rfl
      · exact ⟨rfl, rfl⟩
  show Good o j (cleanupJob (checkRequestPar o (finishScript w
    (inStage .executingScript k.post.needPar w.cancel k))))
  exact good_idle _ hfin.1 (fun h => absurd hfin.2 h)

end Verif.PostJob
