import Verif.AssembleLemmas
/-! Histories of a file: the state after any sequence of received, broken and flushed articles. -/
namespace Verif.Assemble
open CStr

/-- The article an event works on, with the range of the file it claims. -/
def Ev.on : Ev → Option (Nat × Nat × Bytes)
  | .received i _ _ off d _ => some (i, off, d)
  | .broken i _ _ off d => some (i, off, d)
  | .flush => none

/-- Offset, data and checksum if the event is the reception of article `i`. -/
def Ev.got (i : Nat) : Ev → Option (Nat × Bytes × BitVec 32)
  | .received j _ _ off d c => if j = i then some (off, d, c) else none
  | _ => none

/-- What was received for article `i`. -/
def got (evs : List Ev) (i : Nat) : Option (Nat × Bytes × BitVec 32) := evs.findSome? (Ev.got i)

/-- Nothing is done for an article once it was received. -/
def Once (evs : List Ev) : Prop :=
  evs.Pairwise (fun e1 e2 => ∀ i, (e1.got i).isSome → ∀ r, e2.on = some r → r.1 ≠ i)

/-- Different articles claim different ranges of the file. -/
def Distinct (evs : List Ev) : Prop :=
  evs.Pairwise (fun e1 e2 => ∀ r1 r2, e1.on = some r1 → e2.on = some r2 → r1.1 ≠ r2.1 → Apart r1.2.1 r1.2.2 r2.2.1 r2.2.2)

/-- All articles are yEnc encoded. -/
def Ev.isYenc : Ev → Prop
  | .received _ y _ _ _ _ => y = true
  | .broken _ y _ _ _ => y = true
  | .flush => True

/-- A file with `n` articles, none of them downloaded. -/
def fresh (n : Nat) (outInit : Bool) (out : Bytes) : File :=
  { outInit := outInit, out := out, arts := List.replicate n {} }

theorem got_append (done : List Ev) (e : Ev) (i : Nat) : got (done ++ [e]) i = (got done i).or (e.got i) := by
  unfold got
  rw [List.findSome?_append]
  congr 1
  rw [List.findSome?_singleton]

theorem got_mem {evs : List Ev} {i : Nat} {r : Nat × Bytes × BitVec 32} (h : got evs i = some r) : ∃ e ∈ evs, e.got i = some r :=
  List.exists_of_findSome?_eq_some h

theorem got_on {e : Ev} {i : Nat} {r : Nat × Bytes × BitVec 32} (h : e.got i = some r) : e.on = some (i, r.1, r.2.1) := by
  cases e with
  | received j y b off d c =>
    unfold Ev.got at h
    dsimp only at h
    by_cases hj : j = i
    · rw [if_pos hj] at h
      cases h
      rw [hj]; rfl
    · rw [if_neg hj] at h; cases h
  | broken j y b off d => cases h
  | flush => cases h

theorem got_other {e : Ev} {i j : Nat} {o : Nat} {d : Bytes} (h : e.on = some (i, o, d)) (hij : i ≠ j) : e.got j = none := by
  cases e with
  | received k y b off d c =>
    cases h
    unfold Ev.got
    dsimp only
    rw [if_neg hij]
  | broken k y b off d => rfl
  | flush => rfl

/-- When an event works on article `i` nothing was received for it before. -/
theorem once_fresh {done : List Ev} {e : Ev} (ho : Once (done ++ [e])) {r : Nat × Nat × Bytes} (h : e.on = some r) : got done r.1 = none := by
  cases hg : got done r.1 with
  | none => rfl
  | some x =>
    obtain ⟨e1, h1, h2⟩ := got_mem hg
    have := (List.pairwise_append.mp ho).2.2 e1 h1 e (List.mem_singleton_self _) r.1 (by rw [h2]; rfl) r h
    exact absurd rfl this

/-- What is known of an article, given what was received for it; `S off data a` tells how it is stored. -/
def ArtOk (S : Nat → Bytes → Art → Prop) (a : Art) : Option (Nat × Bytes × BitVec 32) → Prop
  | none => a.finished = false ∧ a.content = none
  | some (off, d, c) => a.finished = true ∧ a.off = off ∧ a.size = d.length ∧ a.crc = c ∧ S off d a

/-- The invariant of a history. -/
structure Inv (S : Nat → Bytes → Art → Prop) (n : Nat) (done : List Ev) (f : File) : Prop where
  len : f.arts.length = n
  art : ∀ i a, f.arts[i]? = some a → ArtOk S a (got done i)
  cached : f.cached = inCache f.arts

theorem inCache_modify_same (as : List Art) (i : Nat) (g : Art → Art) (h : ∀ a, (g a).content = a.content) :
    inCache (as.modify i g) = inCache as := by
  unfold inCache
  induction as generalizing i with
  | nil => cases i <;> rfl
  | cons a as ih =>
    cases i with
    | zero => simp [List.modify_zero_cons, List.countP_cons, h]
    | succ i => simp only [List.modify_succ_cons, List.countP_cons, ih]

theorem inCache_modify_add (as : List Art) (i : Nat) (g : Art → Art) (a : Art) (hi : as[i]? = some a) (ha : a.content = none)
    (h : (g a).content.isSome = true) : inCache (as.modify i g) = inCache as + 1 := by
  unfold inCache
  induction as generalizing i with
  | nil => simp at hi
  | cons b as ih =>
    cases i with
    | zero =>
      simp only [List.getElem?_cons_zero, Option.some.injEq] at hi
      subst hi
      simp [List.modify_zero_cons, h, ha]
    | succ i =>
      have := ih i (by simpa using hi)
      simp only [List.modify_succ_cons, List.countP_cons, this]; omega

theorem inCache_none (as : List Art) (h : ∀ a ∈ as, a.content = none) : inCache as = 0 := by
  unfold inCache
  rw [List.countP_eq_zero]
  intro a ha; rw [h a ha]; simp

theorem modify_get (as : List Art) (i j : Nat) (g : Art → Art) (a : Art) (h : (as.modify i g)[j]? = some a) :
    ∃ b, as[j]? = some b ∧ a = if i = j then g b else b := by
  rw [List.getElem?_modify] at h
  cases hb : as[j]? with
  | none => rw [hb] at h; simp at h
  | some b =>
    rw [hb] at h
    simp only [Option.map_eq_map, Option.map_some, Option.some.injEq] at h
    exact ⟨b, rfl, h.symm⟩

/-- Changing the article an event works on. -/
theorem inv_setArt {S S' : Nat → Bytes → Art → Prop} {n : Nat} {done : List Ev} {f f' : File} {e : Ev} {i o : Nat} {d : Bytes}
    (h : Inv S n done f) (ho : Once (done ++ [e])) (hon : e.on = some (i, o, d)) (g : Art → Art)
    (harts : f'.arts = f.arts.modify i g)
    (hS : ∀ j a off dd c, j ≠ i → f.arts[j]? = some a → got done j = some (off, dd, c) → S off dd a → S' off dd a)
    (hg : ∀ a, f.arts[i]? = some a → a.finished = false → a.content = none → ArtOk S' (g a) (e.got i))
    (hc : f'.cached = inCache f'.arts) : Inv S' n (done ++ [e]) f' := by
  refine ⟨by rw [harts, List.length_modify]; exact h.len, ?_, hc⟩
  intro j a ha
  rw [harts] at ha
  obtain ⟨b, hb, hab⟩ := modify_get _ _ _ _ _ ha
  have hob := h.art j b hb
  by_cases hij : i = j
  · subst hij
    rw [if_pos rfl] at hab
    have hno : got done i = none := once_fresh ho hon
    rw [hno] at hob
    rw [got_append, hno, Option.none_or, hab]
    exact hg b hb hob.1 hob.2
  · rw [if_neg hij] at hab
    rw [got_append, got_other hon hij, Option.or_none, hab]
    cases hgj : got done j with
    | none => rw [hgj] at hob; exact hob
    | some r =>
      obtain ⟨off, dd, c⟩ := r
      rw [hgj] at hob
      obtain ⟨h1, h2, h3, h4, h5⟩ := hob
      exact ⟨h1, h2, h3, h4, hS j b off dd c (fun h => hij h.symm) hb hgj h5⟩

theorem run_inv (o : Opt) (fs : Nat) (P : List Ev → File → Prop) (evs : List Ev) :
    ∀ (done : List Ev) (f : File), P done f →
    (∀ d1 e r f, done ++ evs = d1 ++ e :: r → P d1 f → P (d1 ++ [e]) (step o fs f e)) → P (done ++ evs) (run o fs f evs) := by
  induction evs with
  | nil => intro done f h _; rw [List.append_nil]; exact h
  | cons e evs ih =>
    intro done f h hs
    have h1 := hs done e evs f rfl h
    have := ih (done ++ [e]) (step o fs f e) h1 (fun d1 e' r f' heq => hs d1 e' r f' (by rw [← heq]; simp))
    rw [show done ++ e :: evs = done ++ [e] ++ evs by simp]
    exact this

theorem once_prefix {evs d1 r : List Ev} {e : Ev} (h : Once evs) (he : evs = d1 ++ e :: r) : Once (d1 ++ [e]) := by
  rw [he, show d1 ++ e :: r = (d1 ++ [e]) ++ r by simp] at h
  exact (List.pairwise_append.mp h).1

theorem inv_fresh (S : Nat → Bytes → Art → Prop) (n : Nat) (oi : Bool) (out : Bytes) : Inv S n [] (fresh n oi out) := by
  refine ⟨by simp [fresh], ?_, ?_⟩
  · intro i a ha
    have : a = {} := by
      unfold fresh at ha
      rw [List.getElem?_replicate] at ha
      by_cases hi : i < n
      · rw [if_pos hi] at ha; exact (Option.some.inj ha).symm
      · rw [if_neg hi] at ha; cases ha
    rw [this]
    exact ⟨rfl, rfl⟩
  · show (0 : Int) = _
    rw [inCache_none]
    · rfl
    · intro a ha
      rw [(List.mem_replicate.mp ha).2]

/-! ### Joining mode -/

/-- The article's bytes are in the cache or in its file. -/
def SJoin (_ : Nat) (d : Bytes) (a : Art) : Prop := bytesOf a = some d

theorem flushArts_join (out : Bytes) (as : List Art) :
    flushArts false out as = (out, as.map (fun a => (flushArt false out a).2)) := by
  induction as with
  | nil => rfl
  | cons a as ih =>
    unfold flushArts
    have : (flushArt false out a).1 = out := by
      unfold flushArt; cases a.content <;> rfl
    rw [this, ih]
    rfl

theorem step_join (o : Opt) (fs n : Nat) (hd : o.direct = false) (hfo : o.force = false) (done : List Ev) (e : Ev) (f : File)
    (ho : Once (done ++ [e])) (hval : ∀ r, e.on = some r → r.1 < n) (h : Inv SJoin n done f) : Inv SJoin n (done ++ [e]) (step o fs f e) := by
  cases e with
  | received i y b off d c =>
    have hco : createOutput o f y fs = f := by unfold createOutput; rw [hd]; simp
    have hda : directArticle o y = false := by unfold directArticle; rw [hd, hfo]; rfl
    unfold step received
    dsimp only
    rw [hco, hda, hd]
    have hgot : (Ev.received i y b off d c).got i = some (off, d, c) := by unfold Ev.got; dsimp only; rw [if_pos rfl]
    cases b with
    | true =>
      simp only [Bool.not_false, Bool.true_or, Bool.and_self, if_true]
      refine inv_setArt h ho (i := i) (o := off) (d := d) rfl _ rfl (fun _ _ _ _ _ _ _ _ hs => hs) ?_ ?_
      · intro a _ _ _; rw [hgot]; exact ⟨rfl, rfl, rfl, rfl, rfl⟩
      · show f.cached + 1 = inCache (f.arts.modify i _)
        cases ha : f.arts[i]? with
        | none =>
          have h1 := hval _ rfl
          rw [List.getElem?_eq_none_iff, h.len] at ha
          exact absurd ha (Nat.not_le.mpr h1)
        | some a =>
          have := h.art i a ha
          rw [once_fresh ho (r := (i, off, d)) rfl] at this
          rw [inCache_modify_add _ _ _ a ha this.2 rfl, h.cached]; rfl
    | false =>
      simp only [Bool.false_and, Bool.false_eq_true, if_false]
      refine inv_setArt h ho (i := i) (o := off) (d := d) rfl _ rfl (fun _ _ _ _ _ _ _ _ hs => hs) ?_ ?_
      · intro a _ _ hc
        rw [hgot]
        refine ⟨rfl, rfl, rfl, rfl, ?_⟩
        unfold SJoin bytesOf; simp only [hc]
      · show f.cached = _
        rw [h.cached]; congr 1
        refine (inCache_modify_same f.arts i _ ?_).symm
        intro a; rfl
  | broken i y b off d =>
    have hco : createOutput o f y fs = f := by unfold createOutput; rw [hd]; simp
    have hda : directArticle o y = false := by unfold directArticle; rw [hd, hfo]; rfl
    unfold step broken
    dsimp only
    rw [hco, hda, hd]
    simp only [Bool.false_eq_true, if_false]
    rw [ite_self]
    refine inv_setArt h ho (i := i) (o := off) (d := d) rfl _ rfl (fun _ _ _ _ _ _ _ _ hs => hs) ?_ ?_
    · intro a _ hf hc; exact ⟨hf, hc⟩
    · show f.cached = _
      rw [h.cached]; congr 1
      refine (inCache_modify_same f.arts i _ ?_).symm
      intro a; rfl
  | flush =>
    unfold step flush
    rw [hd, Bool.false_and, flushArts_join]
    have hg : ∀ i, got (done ++ [Ev.flush]) i = got done i := fun i => by
      rw [got_append]; show (got done i).or none = _; rw [Option.or_none]
    refine ⟨by simp [h.len], ?_, ?_⟩
    · intro i a ha
      simp only [List.getElem?_map, Option.map_eq_some_iff] at ha
      obtain ⟨b, hb, rfl⟩ := ha
      have hob := h.art i b hb
      rw [hg]
      cases hgi : got done i with
      | none =>
        rw [hgi] at hob
        unfold flushArt
        rw [hob.2]
        exact hob
      | some r =>
        obtain ⟨off, d, c⟩ := r
        rw [hgi] at hob
        obtain ⟨h1, h2, h3, h4, h5⟩ := hob
        unfold flushArt
        cases hc : b.content with
        | none => exact ⟨h1, h2, h3, h4, h5⟩
        | some e =>
          unfold SJoin bytesOf at h5
          rw [hc] at h5
          exact ⟨h1, h2, h3, h4, h5⟩
    · show f.cached - inCache f.arts = _
      have hz : inCache (f.arts.map (fun a => (flushArt false f.out a).2)) = 0 := by
        apply inCache_none
        intro a ha
        simp only [List.mem_map] at ha
        obtain ⟨b, _, rfl⟩ := ha
        unfold flushArt
        cases hc : b.content with
        | none => exact hc
        | some e => rfl
      rw [hz, h.cached]; simp

/-! ### Direct write mode -/

/-- The article's bytes are in the cache or at their place in the output file. -/
def SDirect (out : Bytes) (off : Nat) (d : Bytes) (a : Art) : Prop :=
  a.content = some d ∨ (a.content = none ∧ HasAt out off d)

theorem pairwise_all {α : Type} {R : α → α → Prop} {l : List α} (h : l.Pairwise R) (hs : ∀ x y, R x y → R y x) (hr : ∀ x, R x x) :
    ∀ x ∈ l, ∀ y ∈ l, R x y := by
  induction l with
  | nil => intro x hx; simp at hx
  | cons a l ih =>
    obtain ⟨h1, h2⟩ := List.pairwise_cons.mp h
    intro x hx y hy
    rcases List.mem_cons.mp hx with hx | hx <;> rcases List.mem_cons.mp hy with hy | hy
    · rw [hx, hy]; exact hr a
    · rw [hx]; exact h1 y hy
    · rw [hy]; exact hs _ _ (h1 x hx)
    · exact ih h2 x hx y hy

theorem apart_of_mem {evs : List Ev} (h : Distinct evs) {e1 e2 : Ev} (h1 : e1 ∈ evs) (h2 : e2 ∈ evs) {r1 r2 : Nat × Nat × Bytes}
    (hr1 : e1.on = some r1) (hr2 : e2.on = some r2) (hne : r1.1 ≠ r2.1) : Apart r1.2.1 r1.2.2 r2.2.1 r2.2.2 := by
  have hall := pairwise_all
    (R := fun e1 e2 : Ev => ∀ r1 r2, e1.on = some r1 → e2.on = some r2 → r1.1 ≠ r2.1 → Apart r1.2.1 r1.2.2 r2.2.1 r2.2.2) h
    (fun x y hxy r1 r2 a b c => (hxy r2 r1 b a (fun h => c h.symm)).symm)
    (fun x r1 r2 a b c => by rw [a] at b; cases b; exact absurd rfl c)
  exact hall e1 h1 e2 h2 r1 r2 hr1 hr2 hne

/-- The invariant in direct write mode; `base` is the output file at the beginning. -/
structure PD (n : Nat) (base : Bytes) (done : List Ev) (f : File) : Prop where
  inv : Inv (SDirect f.out) n done f
  init : f.outInit = true
  rest : ∀ q, (∀ e ∈ done, ∀ r, e.on = some r → ¬ (r.2.1 ≤ q ∧ q < r.2.1 + r.2.2.length)) → f.out.getD q 0 = base.getD q 0
  ge : base.length ≤ f.out.length
  le : ∀ m, base.length ≤ m → (∀ e ∈ done, ∀ r, e.on = some r → r.2.1 + r.2.2.length ≤ m) → f.out.length ≤ m

/-- A segment in the cache belongs to a received article. -/
theorem cached_event {S : Bytes} {n : Nat} {done : List Ev} {f : File} (h : Inv (SDirect S) n done f) {i : Nat} {a : Art} {d : Bytes}
    (ha : f.arts[i]? = some a) (hc : a.content = some d) : a.finished = true ∧ ∃ e ∈ done, e.on = some (i, a.off, d) := by
  have ho := h.art i a ha
  cases hg : got done i with
  | none => rw [hg] at ho; rw [ho.2] at hc; cases hc
  | some r =>
    obtain ⟨off, dd, c⟩ := r
    rw [hg] at ho
    obtain ⟨h1, h2, h3, h4, h5⟩ := ho
    have hdd : dd = d := by
      rcases h5 with h5 | h5
      · rw [hc] at h5; exact (Option.some.inj h5).symm
      · rw [hc] at h5; cases h5.1
    obtain ⟨e, he, heg⟩ := got_mem hg
    refine ⟨h1, e, he, ?_⟩
    rw [got_on heg, h2, hdd]

theorem cached_pairwise {S : Bytes} {n : Nat} {done : List Ev} {f : File} (h : Inv (SDirect S) n done f) (hd : Distinct done) :
    f.arts.Pairwise (fun a b => ∀ d e, a.content = some d → b.content = some e → Apart a.off d b.off e) := by
  rw [List.pairwise_iff_getElem]
  intro i j hi hj hij d e hd' he'
  obtain ⟨-, e1, h1, h1'⟩ := cached_event h (List.getElem?_eq_getElem hi) hd'
  obtain ⟨-, e2, h2, h2'⟩ := cached_event h (List.getElem?_eq_getElem hj) he'
  exact apart_of_mem hd h1 h2 h1' h2' (by simp; omega)

theorem distinct_prefix {evs d1 r : List Ev} {e : Ev} (h : Distinct evs) (he : evs = d1 ++ e :: r) : Distinct (d1 ++ [e]) := by
  rw [he, show d1 ++ e :: r = (d1 ++ [e]) ++ r by simp] at h
  exact (List.pairwise_append.mp h).1

/-- All articles are in the output file after the segments in the cache were written. -/
theorem written_all {n : Nat} {done : List Ev} {f : File} (h : Inv (SDirect f.out) n done f) (hd : Distinct done)
    {i off : Nat} {d : Bytes} {c : BitVec 32} {a : Art} (ha : f.arts[i]? = some a) (hg : got done i = some (off, d, c)) :
    HasAt (writeAll f.out f.arts) off d := by
  have ho := h.art i a ha
  rw [hg] at ho
  obtain ⟨h1, h2, h3, h4, h5⟩ := ho
  rcases h5 with h5 | ⟨hcn, h5⟩
  · rw [← h2]
    exact writeAll_places f.arts f.out (cached_pairwise h hd) a (List.mem_of_getElem? ha) d h5
  · apply writeAll_keeps _ _ _ _ h5
    intro b hb e he
    obtain ⟨j, hj⟩ := List.getElem?_of_mem hb
    obtain ⟨-, e2, h6, h7⟩ := cached_event h hj he
    obtain ⟨e1, h8, h9⟩ := got_mem hg
    by_cases hij : i = j
    · subst hij
      rw [ha] at hj
      cases hj
      exact absurd he (by rw [hcn]; simp)
    · exact apart_of_mem hd h8 h6 (got_on h9) h7 hij

theorem createOutput_init (o : Opt) (f : File) (y : Bool) (fs : Nat) (h : f.outInit = true) : createOutput o f y fs = f := by
  unfold createOutput; rw [h]; simp

/-- An article outside of the range keeps its place when something is written. -/
theorem sdirect_write {done : List Ev} {e : Ev} {f : File} {i o : Nat} {d : Bytes} (hd : Distinct (done ++ [e]))
    (hon : e.on = some (i, o, d)) (j : Nat) (a : Art) (off : Nat) (dd : Bytes) (c : BitVec 32) (hj : j ≠ i)
    (hg : got done j = some (off, dd, c)) (hs : SDirect f.out off dd a) : SDirect (writeAt f.out o d) off dd a := by
  rcases hs with hs | ⟨hs, hat⟩
  · exact Or.inl hs
  · refine Or.inr ⟨hs, hasAt_other _ _ _ _ _ hat ?_⟩
    obtain ⟨e1, h1, h2⟩ := got_mem hg
    exact apart_of_mem hd (List.mem_append_left _ h1) (List.mem_append_right _ (List.mem_singleton_self _)) (got_on h2) hon hj

/-- The bounds of the output file after an event that writes at most the range of `e`. -/
theorem pd_write {n : Nat} {base : Bytes} {done : List Ev} {e : Ev} {f : File} {i o : Nat} {d : Bytes} (h : PD n base done f)
    (hon : e.on = some (i, o, d)) :
    (∀ q, (∀ e' ∈ done ++ [e], ∀ r, e'.on = some r → ¬ (r.2.1 ≤ q ∧ q < r.2.1 + r.2.2.length)) →
      (writeAt f.out o d).getD q 0 = base.getD q 0) ∧
    base.length ≤ (writeAt f.out o d).length ∧
    (∀ m, base.length ≤ m → (∀ e' ∈ done ++ [e], ∀ r, e'.on = some r → r.2.1 + r.2.2.length ≤ m) → (writeAt f.out o d).length ≤ m) := by
  refine ⟨?_, Nat.le_trans h.ge (writeAt_mono _ _ _), ?_⟩
  · intro q hq
    have := hq e (by simp) _ hon
    rw [writeAt_outside _ _ _ _ this]
    exact h.rest q (fun e' he' => hq e' (List.mem_append_left _ he'))
  · intro m hm hm2
    exact (writeAt_bound _ _ _ m (h.le m hm (fun e' he' => hm2 e' (List.mem_append_left _ he'))) (hm2 e (by simp) _ hon)).2

theorem pd_keep {n : Nat} {base : Bytes} {done : List Ev} {e : Ev} {f f' : File} (h : PD n base done f) (ho : f'.out = f.out)
    (hi : f'.outInit = f.outInit) (hinv : Inv (SDirect f.out) n (done ++ [e]) f') : PD n base (done ++ [e]) f' := by
  refine ⟨by rw [ho]; exact hinv, by rw [hi]; exact h.init, ?_, by rw [ho]; exact h.ge, ?_⟩
  · intro q hq; rw [ho]; exact h.rest q (fun e' he' => hq e' (List.mem_append_left _ he'))
  · intro m hm hm2; rw [ho]; exact h.le m hm (fun e' he' => hm2 e' (List.mem_append_left _ he'))

theorem step_direct (o : Opt) (fs n : Nat) (base : Bytes) (hmode : o.direct = true ∨ o.force = true) (done : List Ev) (e : Ev) (f : File)
    (hfl : e = .flush → o.direct = true) (hy : e.isYenc)
    (ho : Once (done ++ [e])) (hdis : Distinct (done ++ [e])) (hval : ∀ r, e.on = some r → r.1 < n)
    (h : PD n base done f) : PD n base (done ++ [e]) (step o fs f e) := by
  have hda : directArticle o true = true := by
    unfold directArticle; rcases hmode with hm | hm <;> rw [hm] <;> simp
  cases e with
  | received i y b off d c =>
    have hy' : y = true := hy
    subst hy'
    unfold step received
    dsimp only
    rw [createOutput_init _ _ _ _ h.init, hda]
    have hgot : (Ev.received i true b off d c).got i = some (off, d, c) := by unfold Ev.got; dsimp only; rw [if_pos rfl]
    cases b with
    | true =>
      simp only [Bool.or_true, Bool.and_self, if_true]
      refine pd_keep h ?_ ?_ ?_
      · rfl
      · rfl
      refine inv_setArt h.inv ho (i := i) (o := off) (d := d) rfl _ rfl (fun _ _ _ _ _ _ _ _ hs => hs) ?_ ?_
      · intro a _ _ _; rw [hgot]; exact ⟨rfl, rfl, rfl, rfl, Or.inl rfl⟩
      · show f.cached + 1 = inCache (f.arts.modify i _)
        cases ha : f.arts[i]? with
        | none =>
          have h1 := hval _ rfl
          rw [List.getElem?_eq_none_iff, h.inv.len] at ha
          exact absurd ha (Nat.not_le.mpr h1)
        | some a =>
          have := h.inv.art i a ha
          rw [once_fresh ho (r := (i, off, d)) rfl] at this
          rw [inCache_modify_add _ _ _ a ha this.2 rfl, h.inv.cached]; rfl
    | false =>
      simp only [Bool.false_and, Bool.false_eq_true, if_false, if_true]
      have hpw := pd_write (o := off) (d := d) h (e := Ev.received i true false off d c) rfl
      refine ⟨?_, h.init, hpw.1, hpw.2.1, hpw.2.2⟩
      refine inv_setArt h.inv ho (i := i) (o := off) (d := d) rfl _ rfl ?_ ?_ ?_
      · intro j a of dd cc hj _ hg hs
        exact sdirect_write hdis rfl j a of dd cc hj hg hs
      · intro a _ _ hc
        rw [hgot]
        exact ⟨rfl, rfl, rfl, rfl, Or.inr ⟨hc, hasAt_self _ _ _⟩⟩
      · show f.cached = _
        rw [h.inv.cached]; congr 1
        refine (inCache_modify_same f.arts i _ ?_).symm
        intro a; rfl
  | broken i y b off d =>
    have hy' : y = true := hy
    subst hy'
    unfold step broken
    dsimp only
    rw [createOutput_init _ _ _ _ h.init, hda]
    cases b with
    | true =>
      simp only [Bool.or_true, Bool.and_self, if_true]
      refine pd_keep h ?_ ?_ ?_
      · rfl
      · rfl
      refine inv_setArt h.inv ho (i := i) (o := off) (d := d) rfl _ rfl (fun _ _ _ _ _ _ _ _ hs => hs) ?_ ?_
      · intro a _ hf hc; exact ⟨hf, hc⟩
      · show f.cached = _
        rw [h.inv.cached]; congr 1
        refine (inCache_modify_same f.arts i _ ?_).symm
        intro a; rfl
    | false =>
      simp only [Bool.false_and, Bool.false_eq_true, if_false, if_true]
      have hpw := pd_write (o := off) (d := d) h (e := Ev.broken i true false off d) rfl
      refine ⟨?_, h.init, hpw.1, hpw.2.1, hpw.2.2⟩
      refine inv_setArt h.inv ho (i := i) (o := off) (d := d) rfl _ rfl ?_ ?_ ?_
      · intro j a of dd cc hj _ hg hs
        exact sdirect_write hdis rfl j a of dd cc hj hg hs
      · intro a _ hf hc; exact ⟨hf, hc⟩
      · show f.cached = _
        rw [h.inv.cached]; congr 1
        refine (inCache_modify_same f.arts i _ ?_).symm
        intro a; rfl
  | flush =>
    have hd := hfl rfl
    have hdis' : Distinct done := (List.pairwise_append.mp hdis).1
    unfold step flush
    rw [hd, h.init, Bool.true_and, flushArts_direct]
    have hg : ∀ i, got (done ++ [Ev.flush]) i = got done i := fun i => by
      rw [got_append]; show (got done i).or none = _; rw [Option.or_none]
    refine ⟨⟨by simp [h.inv.len], ?_, ?_⟩, rfl, ?_, ?_, ?_⟩
    · intro i a ha
      simp only [List.getElem?_map, Option.map_eq_some_iff] at ha
      obtain ⟨b, hb, rfl⟩ := ha
      have hob := h.inv.art i b hb
      rw [hg]
      cases hgi : got done i with
      | none => rw [hgi] at hob; exact ⟨hob.1, rfl⟩
      | some r =>
        obtain ⟨off, d, c⟩ := r
        rw [hgi] at hob
        obtain ⟨h1, h2, h3, h4, h5⟩ := hob
        exact ⟨h1, h2, h3, h4, Or.inr ⟨rfl, written_all h.inv hdis' hb hgi⟩⟩
    · show f.cached - inCache f.arts = _
      have hz : inCache (f.arts.map (fun a => { a with content := none })) = 0 := by
        apply inCache_none
        intro a ha
        simp only [List.mem_map] at ha
        obtain ⟨b, _, rfl⟩ := ha
        rfl
      rw [hz, h.inv.cached]; simp
    · intro q hq
      show (writeAll f.out f.arts).getD q 0 = _
      rw [writeAll_outside]
      · exact h.rest q (fun e' he' => hq e' (List.mem_append_left _ he'))
      · intro a ha d hc
        obtain ⟨i, hi⟩ := List.getElem?_of_mem ha
        obtain ⟨-, e', he', hon⟩ := cached_event h.inv hi hc
        exact hq e' (List.mem_append_left _ he') _ hon
    · exact Nat.le_trans h.ge (writeAll_mono _ _)
    · intro m hm hm2
      apply writeAll_bound
      · exact h.le m hm (fun e' he' => hm2 e' (List.mem_append_left _ he'))
      · intro a ha d hc
        obtain ⟨i, hi⟩ := List.getElem?_of_mem ha
        obtain ⟨-, e', he', hon⟩ := cached_event h.inv hi hc
        exact hm2 e' (List.mem_append_left _ he') _ hon

end Verif.Assemble
