import Verif.AssembleHist
/-! C32: what a completed file contains. -/
namespace Verif.Assemble
open CStr
open Crc (crc32)

/-- Specification. `parts` are offsets and bytes; the file contains each part at its offset, zeros
wherever no part is, and ends where the last part ends. -/
structure Assembled (parts : List (Nat × Bytes)) (file : Bytes) : Prop where
  placed : ∀ p ∈ parts, ∀ k, k < p.2.length → file[p.1 + k]? = p.2[k]?
  holes : ∀ q, q < file.length → (∀ p ∈ parts, ¬ (p.1 ≤ q ∧ q < p.1 + p.2.length)) → file[q]? = some 0
  ends : ∀ p ∈ parts, p.1 + p.2.length ≤ file.length
  last : file = [] ∨ ∃ p ∈ parts, file.length = p.1 + p.2.length

/-- The articles received in a history, in the order of the articles. -/
def receivedParts (n : Nat) (evs : List Ev) : List (Nat × Bytes) :=
  (List.range n).filterMap (fun i => (got evs i).map (fun r => (r.1, r.2.1)))

theorem parts_of_inv (S : Nat → Bytes → Art → Prop) (hS : ∀ off d a, S off d a → bytesOf a = some d) :
    ∀ (as : List Art) (k : Nat) (evs : List Ev), (∀ i a, as[i]? = some a → ArtOk S a (got evs (k + i))) →
    Parts as ((List.range' k as.length).filterMap (fun i => (got evs i).map (fun r => (r.1, r.2.1))))
  | [], _, _, _ => rfl
  | a :: as, k, evs, h => by
    have h0 := h 0 a rfl
    rw [Nat.add_zero] at h0
    have ih := parts_of_inv S hS as (k + 1) evs (fun i b hb => by
      have := h (i + 1) b (by simpa using hb)
      rwa [show k + (i + 1) = k + 1 + i by omega] at this)
    rw [List.length_cons, List.range'_succ]
    unfold Parts
    cases hg : got evs k with
    | none =>
      rw [hg] at h0
      rw [h0.1, if_neg (by simp), List.filterMap_cons_none (by rw [hg]; rfl)]
      exact ih
    | some r =>
      obtain ⟨off, d, c⟩ := r
      rw [hg] at h0
      obtain ⟨h1, h2, h3, h4, h5⟩ := h0
      rw [h1, if_pos rfl, List.filterMap_cons_some (by rw [hg]; rfl)]
      exact ⟨d, _, hS _ _ _ h5, by rw [h2], ih⟩

theorem writeAll_none (as : List Art) (out : Bytes) (h : ∀ a ∈ as, a.content = none) : writeAll out as = out := by
  induction as generalizing out with
  | nil => rfl
  | cons a as ih =>
    rw [writeAll_cons, h a (List.mem_cons_self ..)]
    exact ih out (fun b hb => h b (List.mem_cons_of_mem _ hb))

theorem parts_results (as : List Art) (ps : List (Nat × Bytes)) (hp : Parts as ps) (hnone : ∀ a ∈ as, a.content = none) :
    (as.filter (·.finished)).map (fun a => a.result.getD []) = ps.map (·.2) := by
  induction as generalizing ps with
  | nil => have : ps = [] := hp; rw [this]; rfl
  | cons a as ih =>
    unfold Parts at hp
    have hn := hnone a (List.mem_cons_self ..)
    by_cases hf : a.finished = true
    · rw [if_pos hf] at hp
      obtain ⟨d, r, hb, rfl, hr⟩ := hp
      rw [List.filter_cons_of_pos hf, List.map_cons, List.map_cons, ih r hr (fun b hb => hnone b (List.mem_cons_of_mem _ hb))]
      congr 1
      unfold bytesOf at hb
      rw [hn] at hb
      simp only at hb
      rw [hb]; rfl
    · rw [if_neg hf] at hp
      rw [List.filter_cons_of_neg hf]
      exact ih ps hp (fun b hb => hnone b (List.mem_cons_of_mem _ hb))

theorem run_join (o : Opt) (fs n : Nat) (hd : o.direct = false) (hfo : o.force = false) (oi : Bool) (out : Bytes) (evs : List Ev)
    (ho : Once evs) (hval : ∀ e ∈ evs, ∀ r, e.on = some r → r.1 < n) : Inv SJoin n evs (run o fs (fresh n oi out) evs) := by
  have := run_inv o fs (Inv SJoin n) evs [] (fresh n oi out) (inv_fresh _ _ _ _) (by
    intro d1 e r f heq h
    rw [List.nil_append] at heq
    exact step_join o fs n hd hfo d1 e f (once_prefix ho heq) (hval e (by rw [heq]; simp)) h)
  rwa [List.nil_append] at this

/-- C32 (articles joined at the end, no direct write): after every history of received articles, failed
attempts and flushes of the cache, with any mixture of articles in memory and in files, the completed
file is defined and consists of the received articles at their offsets, with zeros in the holes before
later articles, provided that the offsets follow the order of the articles without overlap and that no
hole is 2 GB or more. -/
theorem joined_file (o : Opt) (fs n : Nat) (hd : o.direct = false) (hfo : o.force = false) (oi : Bool) (out : Bytes) (evs : List Ev)
    (ho : Once evs) (hval : ∀ e ∈ evs, ∀ r, e.on = some r → r.1 < n) (hord : Ordered 0 (receivedParts n evs)) :
    ∃ file, complete o (run o fs (fresh n oi out) evs) = some file ∧ Assembled (receivedParts n evs) file := by
  have hinv := run_join o fs n hd hfo oi out evs ho hval
  have hp := parts_of_inv SJoin (fun _ _ _ h => h) _ 0 evs (fun i a ha => by rw [Nat.zero_add]; exact hinv.art i a ha)
  rw [hinv.len, ← List.range_eq_range'] at hp
  refine ⟨layout 0 (receivedParts n evs), ?_, ?_⟩
  · unfold complete
    rw [hd, hfo]
    simp only [Bool.or_self, Bool.false_and, Bool.false_eq_true, if_false]
    have := join_layout _ _ [] hp hord
    rwa [List.nil_append] at this
  · obtain ⟨l1, l2⟩ := layout_length 0 _ hord
    obtain ⟨g1, g2⟩ := layout_get 0 _ hord
    refine ⟨?_, ?_, ?_, ?_⟩
    · intro p hp k hk; simpa using g1 p hp k hk
    · intro q hq hn; simpa using g2 q (Nat.zero_le _) (by omega) hn
    · intro p hp; have := (l1 p hp).2; omega
    · by_cases he : receivedParts n evs = []
      · left; rw [he]; rfl
      · obtain ⟨p, hp, h⟩ := l2 he
        exact Or.inr ⟨p, hp, by omega⟩

/-- The hypotheses are met: four articles, the second lost, received out of order, one of them in memory,
one flushed, one written to its file after a failed attempt. -/
def sampleEvs : List Ev :=
  [.received 2 true true 6 [7, 8] 0, .flush, .broken 0 true false 0 [9, 9], .received 0 true false 0 [1, 2, 3] 0,
   .broken 1 true false 3 [4], .received 3 true true 8 [9] 0]
example : Once sampleEvs := by unfold Once sampleEvs; simp [Ev.got, Ev.on]
example : ∀ e ∈ sampleEvs, ∀ r, e.on = some r → r.1 < 4 := by simp [sampleEvs, Ev.on]
example : receivedParts 4 sampleEvs = [(0, [1, 2, 3]), (6, [7, 8]), (8, [9])] := by decide
example : Ordered 0 (receivedParts 4 sampleEvs) := by
  rw [show receivedParts 4 sampleEvs = [(0, [1, 2, 3]), (6, [7, 8]), (8, [9])] by decide]; simp [Ordered]
example : complete ⟨false, false⟩ (run ⟨false, false⟩ 9 (fresh 4 false []) sampleEvs) = some [1, 2, 3, 0, 0, 0, 7, 8, 9] := by decide +kernel

/-- C32 (direct write): the output file is written while downloading. After every history in which
different articles claim different ranges, the completed file is defined, contains every received article
at its offset, and outside of all ranges the articles (also failed attempts) claimed it is the output file
as it was at the beginning, read as zero beyond its end; it ends at the end of that file or of one of the
ranges. The same holds for a file put back from the history (`force`) if the cache is not flushed. -/
theorem direct_file_partial (o : Opt) (fs n : Nat) (base : Bytes) (evs : List Ev)
    (hmode : o.direct = true ∨ (o.force = true ∧ Ev.flush ∉ evs))
    (hy : ∀ e ∈ evs, e.isYenc) (ho : Once evs) (hdis : Distinct evs) (hval : ∀ e ∈ evs, ∀ r, e.on = some r → r.1 < n) :
    ∃ file, complete o (run o fs (fresh n true base) evs) = some file ∧
      (∀ i off d c, got evs i = some (off, d, c) → ∀ k, k < d.length → file[off + k]? = d[k]?) ∧
      (∀ q, (∀ e ∈ evs, ∀ r, e.on = some r → ¬ (r.2.1 ≤ q ∧ q < r.2.1 + r.2.2.length)) → file.getD q 0 = base.getD q 0) ∧
      base.length ≤ file.length ∧
      (∀ m, base.length ≤ m → (∀ e ∈ evs, ∀ r, e.on = some r → r.2.1 + r.2.2.length ≤ m) → file.length ≤ m) := by
  have hm' : o.direct = true ∨ o.force = true := hmode.elim Or.inl (fun h => Or.inr h.1)
  have h0 : PD n base [] (fresh n true base) :=
    ⟨inv_fresh _ _ _ _, rfl, fun _ _ => rfl, Nat.le_refl _, fun m hm _ => hm⟩
  have h := run_inv o fs (PD n base) evs [] (fresh n true base) h0 (by
    intro d1 e r f heq h
    rw [List.nil_append] at heq
    refine step_direct o fs n base hm' d1 e f ?_ (hy e (by rw [heq]; simp)) (once_prefix ho heq) (distinct_prefix hdis heq)
      (hval e (by rw [heq]; simp)) h
    intro he
    rcases hmode with hm | hm
    · exact hm
    · exact absurd (by rw [heq, he]; simp) hm.2)
  rw [List.nil_append] at h
  generalize run o fs (fresh n true base) evs = f at h
  refine ⟨writeAll f.out f.arts, ?_, ?_, ?_, Nat.le_trans h.ge (writeAll_mono _ _), ?_⟩
  · unfold complete
    rw [if_pos (by rw [h.init]; rcases hm' with hm | hm <;> rw [hm] <;> simp)]
    by_cases hc : inCache f.arts = 0
    · have hn : ∀ a ∈ f.arts, a.content = none := by
        intro a ha
        unfold inCache at hc
        rw [List.countP_eq_zero] at hc
        simpa using hc a ha
      rw [writeCached_none _ _ _ hn]
      congr 1
      rw [writeAll_none _ _ hn]
    · have : decide (f.cached > 0) = true := by
        rw [h.inv.cached]; simp; omega
      rw [this]
      apply writeCached_eq
      intro a ha hs
      obtain ⟨i, hi⟩ := List.getElem?_of_mem ha
      obtain ⟨d, hd⟩ := Option.isSome_iff_exists.mp hs
      exact (cached_event h.inv hi hd).1
  · intro i off d c hg
    obtain ⟨e, he, heg⟩ := got_mem hg
    have hi := hval e he _ (got_on heg)
    have hi' : i < f.arts.length := by rw [h.inv.len]; exact hi
    exact written_all h.inv hdis (List.getElem?_eq_getElem hi') hg
  · intro q hq
    rw [writeAll_outside]
    · exact h.rest q hq
    · intro a ha d hc
      obtain ⟨i, hi⟩ := List.getElem?_of_mem ha
      obtain ⟨-, e', he', hon⟩ := cached_event h.inv hi hc
      exact hq e' he' _ hon
  · intro m hm hm2
    apply writeAll_bound
    · exact h.le m hm hm2
    · intro a ha d hc
      obtain ⟨i, hi⟩ := List.getElem?_of_mem ha
      obtain ⟨-, e', he', hon⟩ := cached_event h.inv hi hc
      exact hm2 e' he' _ hon

example : Distinct sampleEvs ∧ ∀ e ∈ sampleEvs, e.isYenc := by
  constructor
  · unfold Distinct sampleEvs
    simp only [List.pairwise_cons, List.mem_cons, List.not_mem_nil, or_false, Ev.on, forall_eq_or_imp, forall_eq, Option.some.injEq]
    simp [Apart]
    refine ⟨⟨?_, ?_, ?_, ?_⟩, ⟨?_, ?_⟩, ⟨?_, ?_⟩, ?_⟩ <;> intro q <;> omega
  · simp [sampleEvs, Ev.isYenc]

theorem flush_fresh (o : Opt) (n : Nat) (oi : Bool) (out : Bytes) : flush o (fresh n oi out) = fresh n oi out := by
  have h1 : ∀ (d : Bool) (k : Nat), flushArts d out (List.replicate k {}) = (out, List.replicate k {}) := by
    intro d k
    induction k with
    | zero => rfl
    | succ k ih =>
      rw [List.replicate_succ]
      unfold flushArts
      have : flushArt d out {} = (out, {}) := rfl
      rw [this, ih]
  have h2 : inCache (List.replicate n {}) = 0 := inCache_none _ (fun a ha => by rw [(List.mem_replicate.mp ha).2])
  unfold flush fresh
  dsimp only
  rw [h1, h2]
  simp

/-- The output file at the beginning: in direct write mode the first article creates it, as zeros of the
announced size, unless a file of that size is already there, which is kept as it is. -/
theorem first_article_creates (o : Opt) (fs n : Nat) (hd : o.direct = true) (out : Bytes) (evs : List Ev) (hy : ∀ e ∈ evs, e.isYenc)
    (hne : ∃ e ∈ evs, e ≠ .flush) :
    run o fs (fresh n false out) evs = run o fs (fresh n true (if out.length = fs then out else List.replicate fs 0)) evs := by
  have hc : createOutput o (fresh n false out) true fs = fresh n true (if out.length = fs then out else List.replicate fs 0) := by
    unfold createOutput fresh; rw [hd]; simp
  induction evs with
  | nil => obtain ⟨e, he, -⟩ := hne; simp at he
  | cons e evs ih =>
    unfold run
    rw [List.foldl_cons, List.foldl_cons]
    cases e with
    | flush =>
      unfold step
      rw [flush_fresh, flush_fresh]
      apply ih (fun e he => hy e (List.mem_cons_of_mem _ he))
      obtain ⟨e, he, hn⟩ := hne
      rcases List.mem_cons.mp he with h | h
      · exact absurd h hn
      · exact ⟨e, h, hn⟩
    | received i y b off d c =>
      have : y = true := hy _ (List.mem_cons_self ..)
      subst this
      congr 1
      unfold step received
      dsimp only
      rw [hc, createOutput_init _ (fresh n true _) _ _ rfl]
    | broken i y b off d =>
      have : y = true := hy _ (List.mem_cons_self ..)
      subst this
      congr 1
      unfold step broken
      dsimp only
      rw [hc, createOutput_init _ (fresh n true _) _ _ rfl]

example : ∃ e ∈ sampleEvs, e ≠ .flush := ⟨sampleEvs[0], by decide, by decide⟩
/-- A failed attempt leaves its bytes in the file: position 3 belongs to the lost article. -/
example : complete ⟨true, false⟩ (run ⟨true, false⟩ 9 (fresh 4 false []) sampleEvs) = some [1, 2, 3, 4, 0, 0, 7, 8, 9] := by decide +kernel

/-- What the English claim says of holes is therefore false in direct write mode: a hole contains what a
failed attempt left there, or what was in a file of the same size that existed before. -/
theorem direct_holes_dirty (o : Opt) (hd : o.direct = true) (d : Bytes) (old : Bytes) :
    complete o (run o d.length (fresh 1 true (List.replicate d.length 0)) [.broken 0 true false 0 d]) = some d ∧
    complete o (run o old.length (fresh 1 false old) [.broken 0 true true 0 d]) = some old := by
  constructor
  · have : writeAt (List.replicate d.length 0) 0 d = d := by
      unfold writeAt
      by_cases h : d = []
      · simp [h]
      · rw [if_neg h]; simp
    simp [run, step, broken, createOutput, fresh, hd, directArticle, setArt, complete, this, writeCached]
  · simp [run, step, broken, createOutput, fresh, hd, setArt, complete, writeCached]

/-- A file put back from the history is written directly into its output file even without the option
DirectWrite. If its articles are in the cache when the cache is flushed they go into files of their own
(the flush looks at the option only), which nobody reads afterwards: the completed file does not contain
them, although they count as received. -/
theorem flush_loses_articles (o : Opt) (hd : o.direct = false) (hf : o.force = true) (f : File) (hi : f.outInit = true) :
    complete o (flush o f) = some f.out := by
  unfold complete flush
  rw [hd, hf, hi]
  simp only [Bool.or_true, Bool.and_self, if_true, Bool.false_and]
  rw [flushArts_join]
  apply writeCached_none
  intro a ha
  simp only [List.mem_map] at ha
  obtain ⟨b, _, rfl⟩ := ha
  unfold flushArt
  cases hc : b.content with
  | none => exact hc
  | some e => rfl

example : complete ⟨false, true⟩ (run ⟨false, true⟩ 5 (fresh 2 true [1, 2, 0, 0, 0]) [.received 1 true true 2 [3, 4, 5] 0]) = some [1, 2, 3, 4, 5] ∧
    complete ⟨false, true⟩ (run ⟨false, true⟩ 5 (fresh 2 true [1, 2, 0, 0, 0]) [.received 1 true true 2 [3, 4, 5] 0, .flush]) = some [1, 2, 0, 0, 0] := by
  decide +kernel

/-- Articles of other formats have no offset (it is 0). Without direct write they are joined in order, if
none of them is in the cache when the file is completed. -/
theorem unplaced_parts : ∀ (as : List Art) (f : Bytes), (∀ a ∈ as, a.finished = true → a.off = 0 ∧ a.content = none ∧ a.result.isSome) →
    join f f.length as = some (f ++ ((as.filter (·.finished)).map (fun a => a.result.getD [])).flatten)
  | [], f, _ => by simp [join]
  | a :: as, f, h => by
    unfold join
    have ih := fun g => unplaced_parts as g (fun b hb => h b (List.mem_cons_of_mem _ hb))
    by_cases hf : a.finished = true
    · obtain ⟨h1, h2, h3⟩ := h a (List.mem_cons_self ..) hf
      obtain ⟨d, hd⟩ := Option.isSome_iff_exists.mp h3
      rw [if_pos hf, List.filter_cons_of_pos hf]
      unfold joinArt fillGap
      rw [h1, if_neg (by omega)]
      simp only [Option.map_some, Option.bind_some]
      unfold place
      rw [h2, hd]
      simp only
      rw [writeAt_end]
      have := ih (f ++ d)
      rw [List.length_append] at this
      rw [this]
      simp [hd]
    · rw [if_neg hf, List.filter_cons_of_neg hf]
      exact ih f

theorem uu_file_partial (o : Opt) (fs n : Nat) (hd : o.direct = false) (hfo : o.force = false) (oi : Bool) (out : Bytes) (evs : List Ev)
    (ho : Once evs) (hval : ∀ e ∈ evs, ∀ r, e.on = some r → r.1 < n) (h0 : ∀ e ∈ evs, ∀ r, e.on = some r → r.2.1 = 0)
    (hnc : inCache (run o fs (fresh n oi out) evs).arts = 0) :
    complete o (run o fs (fresh n oi out) evs) = some ((receivedParts n evs).map (·.2)).flatten := by
  have hinv := run_join o fs n hd hfo oi out evs ho hval
  generalize hf : run o fs (fresh n oi out) evs = f at *
  have hp := parts_of_inv SJoin (fun _ _ _ h => h) f.arts 0 evs (fun i a ha => by rw [Nat.zero_add]; exact hinv.art i a ha)
  rw [hinv.len, ← List.range_eq_range'] at hp
  have hnone : ∀ a ∈ f.arts, a.content = none := by
    intro a ha
    unfold inCache at hnc
    rw [List.countP_eq_zero] at hnc
    simpa using hnc a ha
  have hall : ∀ a ∈ f.arts, a.finished = true → a.off = 0 ∧ a.content = none ∧ a.result.isSome := by
    intro a ha hfin
    obtain ⟨i, hi⟩ := List.getElem?_of_mem ha
    have hok := hinv.art i a hi
    cases hg : got evs i with
    | none => rw [hg] at hok; rw [hok.1] at hfin; cases hfin
    | some r =>
      obtain ⟨off, d, c⟩ := r
      rw [hg] at hok
      obtain ⟨h1, h2, h3, h4, h5⟩ := hok
      obtain ⟨e, he, heg⟩ := got_mem hg
      refine ⟨by rw [h2]; exact h0 e he _ (got_on heg), hnone a ha, ?_⟩
      unfold SJoin bytesOf at h5
      rw [hnone a ha] at h5
      simp only at h5
      rw [h5]; rfl
  unfold complete
  rw [hd, hfo]
  simp only [Bool.or_self, Bool.false_and, Bool.false_eq_true, if_false]
  have hj := unplaced_parts f.arts [] hall
  rw [List.length_nil, List.nil_append] at hj
  rw [hj]
  congr 2
  exact parts_results f.arts _ hp hnone

example : complete ⟨false, false⟩ (run ⟨false, false⟩ 0 (fresh 2 false []) [.received 1 false false 0 [3] 0, .received 0 false true 0 [1, 2] 0, .flush]) = some [1, 2, 3] := by
  decide +kernel

/-- In the cache, however, they are all written at offset 0: of two parts the second one lands on top of
the first, for every content, and the file is not the two parts one after the other. -/
theorem uu_cached_overwritten (o : Opt) (hd : o.direct = false) (hf : o.force = false) (d1 d2 : Bytes) (h2 : d2 ≠ []) :
    complete o (run o 0 (fresh 2 false []) [.received 0 false true 0 d1 0, .received 1 false true 0 d2 0]) =
      some (d2 ++ d1.drop d2.length) ∧ (d1 ≠ [] → d2 ++ d1.drop d2.length ≠ d1 ++ d2) := by
  constructor
  · have h : writeAt (writeAt [] 0 d1) 0 d2 = d2 ++ d1.drop d2.length := by
      have : writeAt [] 0 d1 = d1 := writeAt_end [] d1
      rw [this]; unfold writeAt; rw [if_neg h2]; simp
    simp [run, step, received, createOutput, fresh, hd, hf, setArt, complete, join, joinArt, fillGap, place, h, List.replicate, List.modify_zero_cons, List.modify_succ_cons]
  · intro h1 heq
    have := congrArg List.length heq
    simp at this
    have l1 := List.length_pos_iff.mpr h1
    have l2 := List.length_pos_iff.mpr h2
    omega

/-- A hole of 2 GB or more (and less than 4 GB): the length of the zeros to be written becomes negative.
One received article is enough, whatever it contains. -/
theorem huge_hole_undefined (o : Opt) (hd : o.direct = false) (hf : o.force = false) (off : Nat) (d : Bytes) (buffered : Bool)
    (h1 : 2 ^ 31 ≤ off) (h2 : off < 2 ^ 32) :
    complete o (run o 0 (fresh 1 false []) [.received 0 true buffered off d 0]) = none := by
  have hneg : toInt32 (off - 0) < 0 := by
    unfold toInt32
    rw [Nat.sub_zero, Int.bmod_def]
    have : (off : Int) % ((2 ^ 32 : Nat) : Int) = off := Int.emod_eq_of_lt (by omega) (by omega)
    rw [this, if_neg (by omega)]; omega
  have hg : fillGap (off + 1) [] 0 off = none := by
    unfold fillGap
    rw [if_pos (by omega), if_pos hneg]
  cases buffered <;>
    simp [run, step, received, createOutput, fresh, hd, hf, setArt, directArticle, complete, join, joinArt, hg, List.replicate, List.modify_zero_cons]

/-- Two articles whose offsets are not in the order of the articles (both in files): the second is
appended instead of being put at its offset. -/
theorem unordered_parts_misplaced (o : Opt) (hd : o.direct = false) (hf : o.force = false) (d1 d2 : Bytes) (off : Nat) (hoff : off < 2 ^ 31) :
    complete o (run o 0 (fresh 2 false []) [.received 0 true false off d1 0, .received 1 true false 0 d2 0]) =
      some (List.replicate off 0 ++ d1 ++ d2) := by
  have h1 := fillGap_small (off + 1) [] off (Nat.zero_le _) (by simpa using hoff) (by simp)
  simp only [List.length_nil, List.nil_append, Nat.sub_zero] at h1
  have h2 : writeAt (List.replicate off 0) off d1 = List.replicate off 0 ++ d1 := by
    have := writeAt_end (List.replicate off 0) d1
    rwa [List.length_replicate] at this
  have h3 : writeAt (List.replicate off 0 ++ d1) (off + d1.length) d2 = List.replicate off 0 ++ d1 ++ d2 := by
    have := writeAt_end (List.replicate off 0 ++ d1) d2
    rwa [List.length_append, List.length_replicate] at this
  have h4 : fillGap 1 (List.replicate off 0 ++ d1) (off + d1.length) 0 = some (List.replicate off 0 ++ d1, off + d1.length) := by
    unfold fillGap; rw [if_neg (by omega)]
  simp [run, step, received, createOutput, fresh, hd, hf, setArt, directArticle, complete, join, joinArt, place, h1, h2, h3, h4, List.replicate, List.modify_zero_cons, List.modify_succ_cons]

/-- The checksum computed for the completed file is the CRC-32 of the received articles put one after the
other. It is that of the file exactly if there are no holes. -/
theorem file_checksum (as : List Art) (ds : List Bytes) (hne : ds ≠ [])
    (h : (as.filter (·.finished)).map (fun a => (a.size, a.crc)) = ds.map (fun d => (d.length, crc32 (d.map (·.toBitVec)))))
    (hsz : ∀ d ∈ ds, d.length < 2 ^ 32) :
    fileCrc true 0 as = some (crc32 (ds.flatten.map (·.toBitVec))) := by
  have h2 : ∀ (as : List Art) (ds : List Bytes) (pre : Bytes), (∀ d ∈ ds, d.length < 2 ^ 32) →
      (as.filter (·.finished)).map (fun a => (a.size, a.crc)) = ds.map (fun d => (d.length, crc32 (d.map (·.toBitVec)))) →
      fileCrc false (crc32 (pre.map (·.toBitVec))) as = some (crc32 ((pre ++ ds.flatten).map (·.toBitVec))) := by
    intro as
    induction as with
    | nil =>
      intro ds pre _ he
      cases ds with
      | nil => simp [fileCrc]
      | cons d ds => simp at he
    | cons a as ih =>
      intro ds pre hs he
      unfold fileCrc
      by_cases hf : a.finished = true
      · rw [if_pos hf, if_neg (by simp)]
        rw [List.filter_cons_of_pos hf] at he
        cases ds with
        | nil => simp at he
        | cons d ds =>
          simp only [List.map_cons, List.cons.injEq, Prod.mk.injEq] at he
          rw [he.1.1, he.1.2]
          have hc := Crc.crc_combine (pre.map (·.toBitVec)) (d.map (·.toBitVec)) (by rw [List.length_map]; exact hs d (List.mem_cons_self ..))
          rw [List.length_map, ← List.map_append] at hc
          rw [hc]
          simp only [Option.bind_some]
          rw [ih ds (pre ++ d) (fun x hx => hs x (List.mem_cons_of_mem _ hx)) he.2]
          simp
      · rw [if_neg hf]
        rw [List.filter_cons_of_neg hf] at he
        exact ih ds pre hs he
  have h1 : ∀ (as : List Art) (d : Bytes) (ds : List Bytes), (∀ x ∈ d :: ds, x.length < 2 ^ 32) →
      (as.filter (·.finished)).map (fun a => (a.size, a.crc)) = (d :: ds).map (fun d => (d.length, crc32 (d.map (·.toBitVec)))) →
      fileCrc true 0 as = some (crc32 ((d ++ ds.flatten).map (·.toBitVec))) := by
    intro as
    induction as with
    | nil => intro d ds _ he; simp at he
    | cons a as ih =>
      intro d ds hs he
      unfold fileCrc
      by_cases hf : a.finished = true
      · rw [if_pos hf, if_pos rfl]
        rw [List.filter_cons_of_pos hf] at he
        simp only [List.map_cons, List.cons.injEq, Prod.mk.injEq] at he
        rw [he.1.2]
        exact h2 as ds d (fun x hx => hs x (List.mem_cons_of_mem _ hx)) he.2
      · rw [if_neg hf]
        rw [List.filter_cons_of_neg hf] at he
        exact ih d ds hs he
  cases ds with
  | nil => exact absurd rfl hne
  | cons d ds => exact h1 as d ds hsz h

example : fileCrc true 0 [{ finished := true, size := 5, crc := crc32 [0x31, 0x32, 0x33, 0x34, 0x35] }, {},
    { finished := true, off := 9, size := 4, crc := crc32 [0x36, 0x37, 0x38, 0x39] }] = some 0xCBF43926#32 := by decide +kernel

end Verif.Assemble
