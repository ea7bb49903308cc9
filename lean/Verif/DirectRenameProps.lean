import Verif.DirectRename
import Verif.ParRenameProps
/-
What the renaming during the download does.
-/
namespace Verif.DirectRename
open CStr FileName Files RarRename

/-! ### What is learned from the first article -/

theorem fed_take (a b : Bytes) (k : Nat) : a.take k ++ b.take (k - a.length) = (a ++ b).take k := (List.take_append).symm

/-- The state of the analyzer after the bytes `t`. -/
structure After (env : Env) (a : Analyzer) (t : Bytes) : Prop where
  fed : a.fed = t.take 16384
  size : a.size = t.length
  len : a.sig.length = 64
  sig : a.sig.take (min 64 t.length) = t.take 64

theorem signature_length {a : Analyzer} (b : Bytes) (h : a.sig.length = 64) : (signature a b).length = 64 := by
  unfold signature
  by_cases hs : a.size < 64
  · rw [if_pos hs]
    simp only [List.length_append, List.length_take, List.length_drop]
    omega
  · rw [if_neg hs]; exact h

theorem signature_take {a : Analyzer} {t : Bytes} (b : Bytes) (hz : a.size = t.length)
    (hs : a.sig.take (min 64 t.length) = t.take 64) : (signature a b).take (min 64 (t ++ b).length) = (t ++ b).take 64 := by
  unfold signature
  by_cases h : a.size < 64
  · rw [if_pos h]
    have e : min 64 t.length = a.size := by omega
    rw [e] at hs
    rw [hs, List.take_of_length_le (by omega : t.length ≤ 64), ← List.append_assoc, List.take_append (l₁ := t)]
    rw [List.take_of_length_le (by omega : t.length ≤ 64), ← hz]
    have hle : (t ++ b.take (64 - a.size)).length = min 64 (t ++ b).length := by
      simp only [List.length_append, List.length_take]; omega
    rw [← hle, List.take_left]
  · rw [if_neg h]
    have e : min 64 t.length = 64 := by omega
    rw [e] at hs
    have e2 : min 64 (t ++ b).length = 64 := by rw [List.length_append]; omega
    rw [e2, hs, List.take_append_of_le_length (by omega)]

theorem append_after {env : Env} {a : Analyzer} {t : Bytes} (b : Bytes) (h : After env a t) : After env (append env a b) (t ++ b) := by
  refine ⟨?_, ?_, signature_length b h.len, signature_take b h.size h.sig⟩
  · show a.fed ++ b.take (16384 - a.size) = _
    rw [h.fed, h.size, fed_take]
  · show a.size + b.length = _
    rw [h.size, List.length_append]

/-- Where the set of a par2-packet is in its header. -/
def setOf (t : Bytes) : Bytes := (t.drop 32).take 16

theorem slice_take (t : Bytes) : ((t.take 64).drop 32).take 16 = setOf t := by
  unfold setOf
  rw [List.drop_take, List.take_take]
  rfl

theorem sig_eq {a : Analyzer} {t : Bytes} (hl : a.sig.length = 64) (hs : a.sig.take (min 64 t.length) = t.take 64) (h64 : 64 ≤ t.length) : a.sig = t.take 64 := by
  rw [show min 64 t.length = 64 by omega, List.take_of_length_le (by omega)] at hs
  exact hs

theorem append_par {env : Env} {a : Analyzer} {t : Bytes} (b : Bytes) (h : After env a t) :
    (append env a b).par = ((decide (64 ≤ t.length) && t.take 8 == magic) || a.par) ∧
    (append env a b).setId = if 64 ≤ t.length ∧ t.take 8 = magic then env.print (setOf t) else a.setId := by
  by_cases h64 : 64 ≤ t.length
  · have hs : signature a b = t.take 64 := by
      unfold signature
      rw [if_neg (by rw [h.size]; omega)]
      exact sig_eq h.len h.sig h64
    have h8 : (t.take 64).take 8 = t.take 8 := by rw [List.take_take]; rfl
    unfold append
    dsimp only
    rw [hs, h8, h.size, slice_take]
    refine ⟨rfl, ?_⟩
    by_cases hm : t.take 8 = magic
    · rw [if_pos (by rw [Bool.and_eq_true]; exact ⟨decide_eq_true h64, by rw [hm]; exact beq_self_eq_true _⟩), if_pos ⟨h64, hm⟩]
    · rw [if_neg (by rw [Bool.and_eq_true]; exact fun q => hm (eq_of_beq q.2)), if_neg (fun q => hm q.2)]
  · have hd : decide (64 ≤ t.length) = false := decide_eq_false h64
    unfold append
    dsimp only
    rw [h.size, hd]
    exact ⟨rfl, by rw [Bool.false_and, if_neg Bool.false_ne_true, if_neg (fun q => h64 q.1)]⟩

theorem take8 {t u : Bytes} (h : 64 ≤ t.length) : (t ++ u).take 8 = t.take 8 := List.take_append_of_le_length (by omega)

theorem setOf_append {t u : Bytes} (h : 64 ≤ t.length) : setOf (t ++ u) = setOf t := by
  unfold setOf
  rw [List.drop_append_of_le_length (by omega), List.take_append_of_le_length (by rw [List.length_drop]; omega)]

theorem fold_append (env : Env) (ps : List Bytes) : ∀ (a : Analyzer) (t : Bytes), After env a t →
    After env (ps.foldl (append env) a) (t ++ ps.flatten) ∧
    (ps.foldl (append env) a).par = ((decide (ps ≠ [] ∧ 64 ≤ (t ++ ps.dropLast.flatten).length) && (t ++ ps.flatten).take 8 == magic) || a.par) ∧
    (ps.foldl (append env) a).setId = if ps ≠ [] ∧ 64 ≤ (t ++ ps.dropLast.flatten).length ∧ (t ++ ps.flatten).take 8 = magic then env.print (setOf (t ++ ps.flatten)) else a.setId := by
  induction ps with
  | nil =>
    intro a t h
    rw [List.flatten_nil, List.append_nil, if_neg (fun q => q.1 rfl)]
    refine ⟨h, ?_, rfl⟩
    rw [decide_eq_false (fun q => q.1 rfl)]
    rfl
  | cons p ps ih =>
    intro a t h
    obtain ⟨i1, i2, i3⟩ := ih _ _ (append_after p h)
    obtain ⟨a1, a2⟩ := append_par p h
    rw [List.foldl_cons, List.flatten_cons, ← List.append_assoc]
    refine ⟨i1, ?_, ?_⟩
    · rw [i2, a1]
      cases ps with
      | nil =>
        rw [decide_eq_false (fun q => q.1 rfl)]
        simp only [List.dropLast_singleton, List.flatten_nil, List.append_nil, Bool.false_and, Bool.false_or, ne_eq, List.cons_ne_nil, not_false_eq_true, true_and]
        by_cases h64 : 64 ≤ t.length
        · rw [take8 h64]
        · rw [decide_eq_false h64]; rfl
      | cons q qs =>
        have ed : t ++ (p :: q :: qs).dropLast.flatten = t ++ p ++ (q :: qs).dropLast.flatten := by
          rw [List.dropLast_cons_cons, List.flatten_cons, ← List.append_assoc]
        rw [ed]
        by_cases h64 : 64 ≤ t.length
        · have e1 : decide (q :: qs ≠ [] ∧ 64 ≤ (t ++ p ++ (q :: qs).dropLast.flatten).length) = true := decide_eq_true ⟨List.cons_ne_nil _ _, by simp only [List.length_append]; omega⟩
          have e2 : decide (p :: q :: qs ≠ [] ∧ 64 ≤ (t ++ p ++ (q :: qs).dropLast.flatten).length) = true := decide_eq_true ⟨List.cons_ne_nil _ _, by simp only [List.length_append]; omega⟩
          rw [e1, e2, decide_eq_true h64, List.append_assoc t p (q :: qs).flatten, take8 h64]
          cases (List.take 8 t == magic) <;> rfl
        · rw [decide_eq_false h64]
          simp only [ne_eq, List.cons_ne_nil, not_false_eq_true, true_and, Bool.false_and, Bool.false_or]
    · rw [i3, a2]
      cases ps with
      | nil =>
        rw [if_neg (fun q => q.1 rfl)]
        simp only [List.dropLast_singleton, List.flatten_nil, List.append_nil, ne_eq, List.cons_ne_nil, not_false_eq_true, true_and]
        by_cases h64 : 64 ≤ t.length
        · rw [take8 h64, setOf_append h64]
        · rw [if_neg (fun q => h64 q.1), if_neg (fun q => h64 q.1)]
      | cons q qs =>
        have ed : t ++ (p :: q :: qs).dropLast.flatten = t ++ p ++ (q :: qs).dropLast.flatten := by
          rw [List.dropLast_cons_cons, List.flatten_cons, ← List.append_assoc]
        rw [ed]
        simp only [ne_eq, List.cons_ne_nil, not_false_eq_true, true_and]
        by_cases hc : 64 ≤ (t ++ p ++ (q :: qs).dropLast.flatten).length ∧ (t ++ p ++ (q :: qs).flatten).take 8 = magic
        · rw [if_pos hc, if_pos hc]
        · rw [if_neg hc, if_neg hc, if_neg]
          intro ⟨h64, hm⟩
          refine hc ⟨by simp only [List.length_append]; omega, ?_⟩
          rw [List.append_assoc, take8 h64]
          exact hm

theorem reset_after (env : Env) (a : Analyzer) (h : a.sig.length = 64) : After env (reset a) [] := ⟨rfl, rfl, h, rfl⟩

/-- C121: the hash is that of the first 16 KiB of the article however it arrives. It is taken for one of a par2-file if it starts with the mark of a
par2-packet and at least 64 bytes have arrived before the last piece; then the set is that of this packet. -/
theorem analyse_spec (env : Env) (a : Analyzer) (ps : List Bytes) (h : a.sig.length = 64) (hp : a.par = false) :
    (analyse env a ps).fed = ps.flatten.take 16384 ∧
    ((analyse env a ps).par = true ↔ 64 ≤ ps.dropLast.flatten.length ∧ ps.flatten.take 8 = [80, 65, 82, 50, 0, 80, 75, 84]) ∧
    ((analyse env a ps).par = true → (analyse env a ps).setId = env.print ((ps.flatten.drop 32).take 16)) := by
  obtain ⟨h1, h2, h3⟩ := fold_append env ps (reset a) [] (reset_after env a h)
  simp only [List.nil_append] at h1 h2 h3
  have hr : (reset a).par = false := hp
  rw [hr, Bool.or_false] at h2
  have hiff : (analyse env a ps).par = true ↔ 64 ≤ ps.dropLast.flatten.length ∧ ps.flatten.take 8 = magic := by
    show (ps.foldl (append env) (reset a)).par = true ↔ _
    rw [h2, Bool.and_eq_true, decide_eq_true_eq, beq_iff_eq]
    refine ⟨fun q => ⟨q.1.2, q.2⟩, fun q => ⟨⟨?_, q.1⟩, q.2⟩⟩
    rintro rfl
    exact absurd q.1 (by simp)
  refine ⟨h1.fed, hiff, fun hq => ?_⟩
  obtain ⟨q1, q2⟩ := hiff.1 hq
  show (ps.foldl (append env) (reset a)).setId = _
  have hne : ps ≠ [] := by
    rintro rfl
    exact absurd q1 (by simp)
  rw [h3, if_pos ⟨hne, q1, q2⟩]
  rfl

/-- Refutation: an article which arrives in one piece is never taken for one of a par2-file, whatever it is. -/
theorem one_piece (env : Env) (a : Analyzer) (b : Bytes) (h : a.sig.length = 64) (hp : a.par = false) : (analyse env a [b]).par = false := by
  have := (analyse_spec env a [b] h hp).2.1
  cases hb : (analyse env a [b]).par with
  | false => rfl
  | true => exact absurd (this.1 hb).1 (by simp)

/-- Refutation: then a par2-file is a par2-file no longer, and it is downloaded even if it was paused. -/
theorem small_par_lost (env : Env) (a : Analyzer) (b : Bytes) (h : a.sig.length = 64) (hp : a.par = false) (size : Int) (k : Nat) (f : File)
    (hf : f.par = true) : (learn env (analyse env a [b]) size k f).par = false ∧ (learn env (analyse env a [b]) size k f).paused = false := by
  unfold learn
  rw [one_piece env a b h hp]
  by_cases hs : 16384 ≤ size ∨ k = 1
  · rw [if_pos hs]; simp [hf]
  · rw [if_neg hs]; simp [hf]

/-- Refutation: if the article was fetched once more, what was found the first time is kept, although the hash is the new one. -/
theorem retry_keeps (env : Env) (a : Analyzer) (ps qs : List Bytes) (h : a.sig.length = 64) (hq : (analyse env a ps).par = true) :
    (analyse env (analyse env a ps) qs).par = true ∧ (analyse env (analyse env a ps) qs).fed = qs.flatten.take 16384 := by
  have h0 := fold_append env ps (reset a) [] (reset_after env a h)
  obtain ⟨h1, h2, -⟩ := fold_append env qs (reset (analyse env a ps)) [] (reset_after env _ h0.1.len)
  refine ⟨?_, h1.fed⟩
  show (qs.foldl (append env) (reset (analyse env a ps))).par = true
  rw [h2, show (reset (analyse env a ps)).par = true from hq, Bool.or_true]

/-- The file is told what was found: the hash only if the nzb-file gives the article at least 16 KiB, or if it is the only one. -/
theorem learn_spec (env : Env) (a : Analyzer) (size : Int) (k : Nat) (f : File) :
    (learn env a size k f).hash = (if 16384 ≤ size ∨ k = 1 then env.md5 a.fed else f.hash) ∧ (learn env a size k f).par = a.par ∧
    (a.par = true → (learn env a size k f).setId = a.setId) ∧ (learn env a size k f).paused = (f.paused && (a.par || !f.par)) ∧
    (learn env a size k f).name = f.name := by
  unfold learn
  by_cases hs : 16384 ≤ size ∨ k = 1
  · rw [if_pos hs, if_pos hs]
    cases f.par <;> cases ha : a.par <;> simp
  · rw [if_neg hs, if_neg hs]
    cases hf : f.par <;> cases ha : a.par <;> simp [hf]

/-- A par2-packet for the examples. -/
def examplePacket : Bytes := [80, 65, 82, 50, 0, 80, 75, 84] ++ List.replicate 60 7

/-- An environment for the examples. -/
def exampleEnv : Env := ⟨id, id, fun _ => none, fun _ _ => true⟩

example : (analyse exampleEnv ⟨[], List.replicate 64 0, 0, false, []⟩ [examplePacket, [1]]).par = true ∧
    (analyse exampleEnv ⟨[], List.replicate 64 0, 0, false, []⟩ [examplePacket ++ [1]]).par = false ∧
    (analyse exampleEnv (analyse exampleEnv ⟨[], List.replicate 64 0, 0, false, []⟩ [examplePacket, [1]]) [[1, 2], [3]]).par = true := by decide +kernel

/-! ### The par2-files which are wanted -/

theorem choose_mem (l : List Par) : ∀ (seen : List Bytes) (i : Nat), i ∈ choose seen l → ∃ p ∈ l, p.id = i ∧ p.setId ∉ seen := by
  induction l with
  | nil => intro seen i h; exact absurd h List.not_mem_nil
  | cons p l ih =>
    intro seen i h
    unfold choose at h
    by_cases hc : seen.contains p.setId = true
    · rw [if_pos hc] at h
      obtain ⟨q, hq, h1, h2⟩ := ih seen i h
      exact ⟨q, List.mem_cons_of_mem _ hq, h1, h2⟩
    · rw [if_neg hc, List.mem_cons] at h
      rcases h with h | h
      · exact ⟨p, List.mem_cons_self, h.symm, fun q => hc (List.contains_iff_mem.2 q)⟩
      · obtain ⟨q, hq, h1, h2⟩ := ih _ i h
        exact ⟨q, List.mem_cons_of_mem _ hq, h1, fun m => h2 (List.mem_append_left _ m)⟩

/-- Of each set which was not seen the first par2-file is chosen and no other. -/
theorem choose_first (l : List Par) : ∀ (seen : List Bytes), (l.map (·.id)).Nodup → ∀ p ∈ l, (p.id ∈ choose seen l ↔
    p.setId ∉ seen ∧ l.find? (fun q => q.setId == p.setId) = some p) := by
  induction l with
  | nil => intro seen hn p h; exact absurd h List.not_mem_nil
  | cons q l ih =>
    intro seen hn p hp
    rw [List.map_cons, List.nodup_cons] at hn
    unfold choose
    rw [List.find?_cons]
    by_cases hc : seen.contains q.setId = true
    · rw [if_pos hc]
      have hq := List.contains_iff_mem.1 hc
      rcases List.mem_cons.1 hp with rfl | hp'
      · constructor
        · intro h
          obtain ⟨r, hr, h1, -⟩ := choose_mem l seen p.id h
          exact absurd (List.mem_map.2 ⟨r, hr, h1⟩) hn.1
        · exact fun h => absurd hq h.1
      · rw [ih seen hn.2 p hp']
        refine and_congr_right fun h => ?_
        have hne : (q.setId == p.setId) = false := beq_false_of_ne fun e => h (e ▸ hq)
        rw [hne]
    · rw [if_neg hc]
      have hq : q.setId ∉ seen := fun m => hc (List.contains_iff_mem.2 m)
      rcases List.mem_cons.1 hp with rfl | hp'
      · rw [beq_self_eq_true]
        exact ⟨fun _ => ⟨hq, rfl⟩, fun _ => List.mem_cons_self⟩
      · have hid : p.id ≠ q.id := fun e => hn.1 (e ▸ List.mem_map.2 ⟨p, hp', rfl⟩)
        rw [List.mem_cons, ih _ hn.2 p hp']
        by_cases he : q.setId = p.setId
        · rw [he, beq_self_eq_true]
          constructor
          · rintro (h | h)
            · exact absurd h hid
            · exact absurd (List.mem_append_right seen (List.mem_singleton.2 rfl)) h.1
          · intro h
            exact absurd (congrArg Par.id (Option.some.inj h.2)) (fun e => hid e.symm)
        · rw [beq_false_of_ne he]
          constructor
          · rintro (h | h)
            · exact absurd h hid
            · exact ⟨fun m => h.1 (List.mem_append_left _ m), h.2⟩
          · intro h
            refine Or.inr ⟨fun m => ?_, h.2⟩
            rcases List.mem_append.1 m with m | m
            · exact h.1 m
            · exact he (List.mem_singleton.1 m).symm

theorem find_some {l : List File} (hn : (l.map (·.id)).Nodup) {f : File} (hf : f ∈ l) : find l f.id = some f := by
  unfold find
  induction l with
  | nil => exact absurd hf List.not_mem_nil
  | cons g l ih =>
    rw [List.map_cons, List.nodup_cons] at hn
    rw [List.find?_cons]
    rcases List.mem_cons.1 hf with rfl | hf'
    · rw [beq_self_eq_true]
    · have hne : (g.id == f.id) = false := beq_false_of_ne fun e => hn.1 (e ▸ List.mem_map.2 ⟨f, hf', rfl⟩)
      rw [hne]
      exact ih hn.2 hf'

/-- What `std::sort` makes of the par2-files. -/
def Sorted (l : List File) (ps sorted : List Par) : Prop := List.Perm ps sorted ∧ sorted.Pairwise (fun a b => less l b a = false)

/-- The par2-files of the queue are those files which are marked so, with their sets. -/
theorem mem_collect (n : Nzb) (p : Par) : p ∈ collect n ↔
    (∃ f ∈ n.files, f.par = true ∧ p = ⟨f.id, f.name, f.setId, false⟩) ∨ (∃ f ∈ n.done, f.par = true ∧ p = ⟨f.id, f.name, f.setId, true⟩) := by
  unfold collect
  rw [List.mem_append, List.mem_map, List.mem_map]
  refine or_congr ⟨?_, ?_⟩ ⟨?_, ?_⟩ <;> rintro ⟨f, hf, he⟩
  · exact ⟨f, (List.mem_filter.1 hf).1, (List.mem_filter.1 hf).2, he.symm⟩
  · exact ⟨f, List.mem_filter.2 ⟨hf, he.1⟩, he.2.symm⟩
  · exact ⟨f, (List.mem_filter.1 hf).1, (List.mem_filter.1 hf).2, he.symm⟩
  · exact ⟨f, List.mem_filter.2 ⟨hf, he.1⟩, he.2.symm⟩

/-- A set has a par2-file which is completed. -/
def Has (n : Nzb) (s : Bytes) : Prop := ∃ c ∈ n.done, c.par = true ∧ c.setId = s

/-- C121: whatever order `std::sort` gives to equal files, of each set without a completed par2-file one file gets priority, one of the smallest,
and it is downloaded even if it was paused. All other files stay as they are. -/
theorem unpause_spec (n : Nzb) (sorted : List Par) (hs : Sorted n.files (collect n) sorted)
    (hid : ((n.files.map (·.id)) ++ (n.done.map (·.id))).Nodup) :
    ∃ chosen : File → Bool,
      (unpause sorted n).files = n.files.map (fun f => if chosen f then { f with paused := false, extra := true } else f) ∧
      (unpause sorted n).done = n.done ∧
      (∀ f ∈ n.files, chosen f = true → f.par = true ∧ ¬ Has n f.setId ∧ ∀ g ∈ n.files, g.par = true → g.setId = f.setId → f.size ≤ g.size) ∧
      (∀ f ∈ n.files, ∀ g ∈ n.files, chosen f = true → chosen g = true → f.setId = g.setId → f = g) ∧
      (∀ f ∈ n.files, f.par = true → ¬ Has n f.setId → ∃ g ∈ n.files, chosen g = true ∧ g.setId = f.setId) := by
  obtain ⟨hp, ho⟩ := hs
  have hfid : (n.files.map (·.id)).Nodup := (List.nodup_append.1 hid).1
  have hdis := (List.nodup_append.1 hid).2.2
  have hcol : ((collect n).map (·.id)).Nodup := by
    have : (collect n).map (·.id) = (n.files.filter (·.par)).map (·.id) ++ (n.done.filter (·.par)).map (·.id) := by
      unfold collect
      rw [List.map_append, List.map_map, List.map_map]
      rfl
    rw [this]
    exact (List.Sublist.append (List.filter_sublist.map _) (List.filter_sublist.map _)).nodup hid
  have hsid : (sorted.map (·.id)).Nodup := (hp.map _).nodup_iff.1 hcol
  let seen := (sorted.filter (·.completed)).map (·.setId)
  have hseen : ∀ s, s ∈ seen ↔ Has n s := by
    intro s
    constructor
    · intro h
      obtain ⟨p, hp1, rfl⟩ := List.mem_map.1 h
      obtain ⟨hp2, hp3⟩ := List.mem_filter.1 hp1
      rcases (mem_collect n p).1 (hp.mem_iff.2 hp2) with ⟨f, -, -, rfl⟩ | ⟨f, hf, h2, rfl⟩
      · exact nomatch hp3
      · exact ⟨f, hf, h2, rfl⟩
    · rintro ⟨c, hc, h2, rfl⟩
      exact List.mem_map.2 ⟨⟨c.id, c.name, c.setId, true⟩, List.mem_filter.2 ⟨hp.mem_iff.1 ((mem_collect n _).2 (Or.inr ⟨c, hc, h2, rfl⟩)), rfl⟩, rfl⟩
  -- what it means that a file of the queue is chosen
  have key : ∀ f ∈ n.files, (choose seen sorted).contains f.id = true ↔ f.par = true ∧ ¬ Has n f.setId ∧
      sorted.find? (fun q => q.setId == f.setId) = some ⟨f.id, f.name, f.setId, false⟩ := by
    intro f hf
    rw [List.contains_iff_mem]
    constructor
    · intro h
      obtain ⟨p, hp1, hp2, hp3⟩ := choose_mem sorted seen f.id h
      rcases (mem_collect n p).1 (hp.mem_iff.2 hp1) with ⟨g, hg, h2, rfl⟩ | ⟨g, hg, h2, rfl⟩
      · have : g = f := by
          have e1 := find_some hfid hg
          have e2 := find_some hfid hf
          rw [show g.id = f.id from hp2, e2] at e1
          exact (Option.some.inj e1).symm
        subst this
        have := (choose_first sorted seen hsid _ hp1).1 h
        exact ⟨h2, fun q => this.1 ((hseen _).2 q), this.2⟩
      · exact absurd hp2.symm (hdis _ (List.mem_map.2 ⟨f, hf, rfl⟩) _ (List.mem_map.2 ⟨g, hg, rfl⟩))
    · rintro ⟨h1, h2, h3⟩
      exact (choose_first sorted seen hsid ⟨f.id, f.name, f.setId, false⟩ (hp.mem_iff.1 ((mem_collect n _).2 (Or.inl ⟨f, hf, h1, rfl⟩)))).2
        ⟨fun q => h2 ((hseen _).1 q), h3⟩
  refine ⟨fun f => (choose seen sorted).contains f.id, rfl, rfl, ?_, ?_, ?_⟩
  · intro f hf hc
    obtain ⟨h1, h2, h3⟩ := (key f hf).1 hc
    refine ⟨h1, h2, fun g hg hgp hgs => ?_⟩
    obtain ⟨-, as, bs, hab, has⟩ := List.find?_eq_some_iff_append.1 h3
    have hgm : (⟨g.id, g.name, g.setId, false⟩ : Par) ∈ sorted := hp.mem_iff.1 ((mem_collect n _).2 (Or.inl ⟨g, hg, hgp, rfl⟩))
    rw [hab] at hgm ho
    rcases List.mem_append.1 hgm with hm | hm
    · have := has _ hm
      simp [hgs] at this
    · rcases List.mem_cons.1 hm with hm | hm
      · have e1 := find_some hfid hg
        rw [show g.id = f.id from congrArg Par.id hm, find_some hfid hf] at e1
        rw [Option.some.inj e1]
        exact Int.le_refl _
      · have hle := (List.pairwise_cons.1 (List.pairwise_append.1 ho).2.1).1 _ hm
        unfold less at hle
        dsimp only at hle
        rw [find_some hfid hf, find_some hfid hg] at hle
        have := of_decide_eq_false hle
        omega
  · intro f hf g hg hc hc2 hsame
    have h1 := ((key f hf).1 hc).2.2
    have h2 := ((key g hg).1 hc2).2.2
    rw [hsame, h2] at h1
    have e1 := find_some hfid hg
    rw [show g.id = f.id from congrArg Par.id (Option.some.inj h1), find_some hfid hf] at e1
    exact Option.some.inj e1
  · intro f hf hpar hno
    have hfm : (⟨f.id, f.name, f.setId, false⟩ : Par) ∈ sorted := hp.mem_iff.1 ((mem_collect n _).2 (Or.inl ⟨f, hf, hpar, rfl⟩))
    cases hfd : sorted.find? (fun q => q.setId == f.setId) with
    | none => exact absurd (List.find?_eq_none.1 hfd _ hfm) (by simp)
    | some p =>
      have hpm := List.mem_of_find?_eq_some hfd
      have hps : p.setId = f.setId := by have := List.find?_some hfd; exact eq_of_beq this
      rcases (mem_collect n p).1 (hp.mem_iff.2 hpm) with ⟨g, hg, h2, rfl⟩ | ⟨g, hg, h2, rfl⟩
      · dsimp only at hps
        exact ⟨g, hg, (key g hg).2 ⟨h2, by rw [hps]; exact hno, by rw [hps]; rw [hfd, hps]⟩, hps⟩
      · exact absurd ⟨g, hg, h2, hps⟩ hno

/-! ### When the par2-files are read -/

/-- The first articles of all files have been downloaded. -/
def AllKnown (n : Nzb) : Prop := (∀ f ∈ n.files, f.hash ≠ [] ∧ (f.par = true → f.setId ≠ [])) ∧ (∀ f ∈ n.done, f.hash ≠ [] ∧ (f.par = true → f.setId ≠ []))

theorem ready_iff (n : Nzb) : ready n = true ↔ AllKnown n := by
  have h : ∀ (h s : Bytes) (p : Bool), (!(h.isEmpty || (p && s.isEmpty))) = true ↔ h ≠ [] ∧ (p = true → s ≠ []) := by
    intro h s p
    cases h <;> cases s <;> cases p <;> simp
  unfold ready AllKnown
  rw [Bool.and_eq_true, List.all_eq_true, List.all_eq_true]
  exact and_congr (forall_congr' fun f => imp_congr Iff.rfl (h _ _ _)) (forall_congr' fun f => imp_congr Iff.rfl (h _ _ _))

/-- C121: the par2-files are read at most once, not before the first articles of all files have been downloaded and not while a par2-file which is wanted for
it is in the queue. -/
theorem load_when (sort : List File → List Par → List Par) (n : Nzb) (h : (checkState sort n).2 = true) :
    n.finished = false ∧ n.loading = false ∧ AllKnown n ∧ (∀ f ∈ (checkState sort n).1.files, f.extra = false) ∧
    (checkState sort n).1.loading = true := by
  unfold checkState at h ⊢
  cases hf : n.finished with
  | true => rw [hf, if_pos rfl] at h; exact nomatch h
  | false =>
    rw [hf, if_neg Bool.false_ne_true] at h
    rw [if_neg Bool.false_ne_true]
    cases hr : ready n with
    | false => rw [hr] at h; exact nomatch h
    | true =>
      rw [hr, if_neg (by decide)] at h
      rw [if_neg (by decide)]
      dsimp only at h ⊢
      by_cases hc : (!(if n.waiting = true then n else { unpause (sort n.files (collect n)) n with waiting := true }).loading &&
          !(if n.waiting = true then n else { unpause (sort n.files (collect n)) n with waiting := true }).files.any (·.extra)) = true
      · rw [if_pos hc]
        rw [Bool.and_eq_true, Bool.not_eq_true', Bool.not_eq_true'] at hc
        refine ⟨rfl, ?_, (ready_iff n).1 hr, ?_, rfl⟩
        · have := hc.1
          by_cases hw : n.waiting = true
          · rw [if_pos hw] at this; exact this
          · rw [if_neg hw] at this; exact this
        · intro f hm
          have := List.any_eq_false.1 hc.2 f hm
          exact Bool.not_eq_true _ ▸ this
      · rw [if_neg hc] at h
        exact nomatch h

/-- What was wanted stays wanted while the state is checked. -/
theorem extra_stays (sorted : List Par) (n : Nzb) (f : File) (hf : f ∈ n.files) (he : f.extra = true) : (unpause sorted n).files.any (·.extra) = true := by
  unfold unpause
  rw [List.any_eq_true]
  refine ⟨_, List.mem_map.2 ⟨f, hf, rfl⟩, ?_⟩
  by_cases hc : (choose ((sorted.filter (·.completed)).map (·.setId)) sorted).contains f.id = true
  · rw [if_pos hc]; rfl
  · rw [if_neg hc]; exact he

theorem checkState_files (sort : List File → List Par → List Par) (n : Nzb) :
    (checkState sort n).1.files = n.files ∨ (checkState sort n).1.files = (unpause (sort n.files (collect n)) n).files := by
  unfold checkState
  by_cases h1 : n.finished = true
  · rw [if_pos h1]; exact Or.inl rfl
  · rw [if_neg h1]
    by_cases h2 : (!ready n) = true
    · rw [if_pos h2]; exact Or.inl rfl
    · rw [if_neg h2]
      by_cases h3 : n.waiting = true
      · rw [if_pos h3]
        dsimp only
        by_cases h4 : (!n.loading && !n.files.any (·.extra)) = true
        · rw [if_pos h4]; exact Or.inl rfl
        · rw [if_neg h4]; exact Or.inl rfl
      · rw [if_neg h3]
        dsimp only
        split
        · exact Or.inr rfl
        · exact Or.inr rfl

/-- Refutation: the completion of a par2-file which was wanted does not start the reading, even if it was the last one: it still counts as being in the queue. -/
theorem last_par_not_read (sort : List File → List Par → List Par) (n : Nzb) (f : File) (hf : f ∈ n.files) (he : f.extra = true) : (fileDone sort n f).2 = false := by
  unfold fileDone
  dsimp only
  generalize hm : ({ n with done := n.done ++ [⟨f.id, completedName f, f.orig, f.par, f.hash, f.setId⟩] } : Nzb) = m
  have hfm : f ∈ m.files := by rw [← hm]; exact hf
  cases hc : (checkState sort m).2 with
  | false => rfl
  | true =>
    have hall := (load_when sort m hc).2.2.2.1
    rcases checkState_files sort m with e | e
    · rw [e] at hall
      rw [hall f hfm] at he
      exact nomatch he
    · rw [e] at hall
      obtain ⟨g, hg, h2⟩ := List.any_eq_true.1 (extra_stays (sort m.files (collect m)) m f hfm he)
      rw [hall g hg] at h2
      exact nomatch h2

/-- A par2-file and a file of the download for the examples. -/
def examplePar : File := ⟨1, lit "a.par2", [], true, [1], [9], 100, true, false, none⟩
def exampleFile : File := ⟨2, lit "x", [], false, [2], [], 5000, false, false, none⟩

example : (checkState (fun _ l => l) ⟨[examplePar, { examplePar with id := 3, size := 200 }, exampleFile], [], false, false, false⟩).1.files =
    [wanted examplePar, { examplePar with id := 3, size := 200 }, exampleFile] ∧
    (fileDone (fun _ l => l) ⟨[wanted examplePar, exampleFile], [], true, false, false⟩ (wanted examplePar)).2 = false ∧
    (checkState (fun _ l => l) (fileDone (fun _ l => l) ⟨[wanted examplePar, exampleFile], [], true, false, false⟩ (wanted examplePar)).1).2 = true := by decide +kernel

/-! ### The new names -/

/-- The first source file with a hash. -/
def FirstNamed (hashes : List (Bytes × Bytes)) (hash new : Bytes) : Prop := ∃ a b, hashes = a ++ (new, hash) :: b ∧ ∀ e ∈ a, e.2 ≠ hash

/-- C121: a file gets the name of the first source file with the hash of its first 16 KiB, unless it has this name already, up to the case. -/
theorem regular_iff (old hash new : Bytes) (hashes : List (Bytes × Bytes)) :
    regularName old hashes hash = some new ↔ hash ≠ [] ∧ FirstNamed hashes hash new ∧ old.map WildMask.lower ≠ new.map WildMask.lower := by
  unfold regularName
  by_cases he : hash.isEmpty = true
  · rw [if_pos he]
    exact ⟨(fun h => nomatch h), fun h => absurd (List.isEmpty_iff.1 he) h.1⟩
  · rw [if_neg he]
    have hne : hash ≠ [] := fun e => he (List.isEmpty_iff.2 e)
    cases hf : hashes.find? (fun e => e.2 == hash) with
    | none =>
      refine ⟨(fun h => nomatch h), fun h => ?_⟩
      obtain ⟨a, b, hab, -⟩ := h.2.1
      have := List.find?_eq_none.1 hf (new, hash) (by rw [hab]; simp)
      simp at this
    | some e =>
      obtain ⟨h1, a, b, hab, ha⟩ := List.find?_eq_some_iff_append.1 hf
      have hfst : FirstNamed hashes hash e.1 := by
        refine ⟨a, b, ?_, fun x hx => ?_⟩
        · rw [hab, ← eq_of_beq h1]
        · have := ha x hx
          simpa using this
      have huniq : ∀ m, FirstNamed hashes hash m → m = e.1 := by
        rintro m ⟨a2, b2, hab2, ha2⟩
        have hf2 : hashes.find? (fun e => e.2 == hash) = some (m, hash) :=
          List.find?_eq_some_iff_append.2 ⟨beq_self_eq_true _, a2, b2, hab2, fun x hx => by simp [ha2 x hx]⟩
        rw [hf] at hf2
        exact (congrArg Prod.fst (Option.some.inj hf2)).symm
      dsimp only
      by_cases hc : Rpc.eqNoCase old e.1 = true
      · rw [if_pos hc]
        refine ⟨(fun h => nomatch h), fun h => ?_⟩
        rw [huniq new h.2.1] at h
        exact absurd (eq_of_beq hc) h.2.2
      · rw [if_neg hc]
        constructor
        · intro h
          rw [← Option.some.inj h]
          exact ⟨hne, hfst, fun q => hc (by unfold Rpc.eqNoCase; rw [q]; exact beq_self_eq_true _)⟩
        · intro h
          rw [huniq new h.2.1]

theorem parDest_inj {id : Bytes} {a b : Nat} (h : ParRename.parDest id a = ParRename.parDest id b) : a = b := by
  unfold ParRename.parDest at h
  have h1 := List.append_cancel_left (List.append_cancel_left h)
  exact pad_inj (List.append_cancel_right h1)

theorem freeVol_from (d : Dir) (id : Bytes) : ∀ (f k : Nat), ∃ i, k ≤ i ∧ i ≤ k + f ∧ freeVol d id f k = (ParRename.parDest id i, i + 1) ∧
    (∀ j, k ≤ j → j < i → isFile (get d (ParRename.parDest id j)) = true) ∧ (i < k + f → isFile (get d (ParRename.parDest id i)) = false) := by
  intro f
  induction f with
  | zero =>
    intro k
    exact ⟨k, Nat.le_refl _, Nat.le_refl _, rfl, fun j h1 h2 => absurd h2 (by omega), fun h => absurd h (by omega)⟩
  | succ f ih =>
    intro k
    rw [freeVol]
    cases h : isFile (get d (ParRename.parDest id k)) with
    | true =>
      rw [if_pos rfl]
      obtain ⟨i, h1, h2, h3, h4, h5⟩ := ih (k + 1)
      refine ⟨i, by omega, by omega, h3, ?_, fun hi => h5 (by omega)⟩
      intro j hj hji
      by_cases hk : j = k
      · rw [hk]; exact h
      · exact h4 j (by omega) hji
    | false =>
      rw [if_neg (by simp)]
      exact ⟨k, Nat.le_refl _, by omega, rfl, fun j h1 h2 => absurd h2 (by omega), fun _ => h⟩

theorem freeVol_free (d : Dir) (id : Bytes) (k : Nat) : isFile (get d (freeVol d id d.length k).1) = false ∧ ∃ i, k ≤ i ∧ freeVol d id d.length k = (ParRename.parDest id i, i + 1) := by
  obtain ⟨i, h1, h2, h3, h4, h5⟩ := freeVol_from d id d.length k
  rw [h3]
  refine ⟨?_, i, h1, rfl⟩
  by_cases hi : i < k + d.length
  · exact h5 hi
  · cases hf : isFile (get d (ParRename.parDest id i)) with
    | false => rfl
    | true =>
      have hmem : ∀ j, k ≤ j → j ≤ i → ParRename.parDest id j ∈ d.map (·.1) := by
        intro j hk hj
        have : isFile (get d (ParRename.parDest id j)) = true := by
          by_cases hji : j = i
          · rw [hji]; exact hf
          · exact h4 j hk (by omega)
        obtain ⟨x, hx⟩ := (isFile_iff _).mp this
        exact List.mem_map.mpr ⟨_, get_mem d _ _ hx, rfl⟩
      have hl := nodup_subset_length ((List.range (d.length + 1)).map (fun j => ParRename.parDest id (k + j))) (d.map (·.1))
        (by
          refine List.Pairwise.map (R := fun a b => a ≠ b) _ ?_ List.nodup_range
          intro a b hab h
          exact hab (by have := parDest_inj h; omega))
        (by
          intro x hx
          rw [List.mem_map] at hx
          obtain ⟨j, hj, rfl⟩ := hx
          rw [List.mem_range] at hj
          exact hmem (k + j) (by omega) (by omega))
      rw [List.length_map, List.length_range, List.length_map] at hl
      omega

theorem endsPar_append {a b : Bytes} (h : (lit ".par2").isSuffixOf (b.map WildMask.lower) = true) : endsPar (a ++ b) = true := by
  unfold endsPar
  rw [List.isSuffixOf_iff_suffix] at h ⊢
  rw [List.map_append]
  exact h.trans (List.suffix_append _ _)

theorem parDest_ends (id : Bytes) (k : Nat) : endsPar (ParRename.parDest id k) = true := by
  unfold ParRename.parDest
  rw [← List.append_assoc, ← List.append_assoc]
  exact endsPar_append (by decide)

theorem volSuffix_spec (old s : Bytes) (h : volSuffix old = some s) :
    s <:+ old ∧ startsWith (lit ".vol") s = true ∧ (lit ".par2").isSuffixOf (s.map WildMask.lower) = true := by
  induction old with
  | nil => exact nomatch h
  | cons c t ih =>
    unfold volSuffix at h
    by_cases hv : startsWith (lit ".vol") (c :: t) = true
    · rw [if_pos hv] at h
      cases hl : lastIdx 46 (c :: t) with
      | none => rw [hl] at h; exact nomatch h
      | some p =>
        rw [hl] at h
        dsimp only at h
        by_cases he : Rpc.eqNoCase ((c :: t).drop p) (lit ".par2") = true
        · rw [if_pos he] at h
          rw [← Option.some.inj h]
          refine ⟨List.suffix_refl _, hv, ?_⟩
          rw [List.isSuffixOf_iff_suffix]
          have e := eq_of_beq he
          rw [show (lit ".par2").map WildMask.lower = lit ".par2" by decide, List.map_drop] at e
          rw [← e]
          exact List.drop_suffix _ _
        · rw [if_neg he] at h; exact nomatch h
    · rw [if_neg hv] at h
      obtain ⟨h1, h2⟩ := ih h
      exact ⟨h1.trans (List.suffix_cons _ _), h2⟩

/-- C121: a par2-file gets the name of its set with the extension `.par2`, which no file of the directory has. -/
theorem parName_spec (old : Bytes) (d : Dir) (id : Bytes) (vol : Nat) :
    isFile (get d (parName old d id vol).1) = false ∧ id <+: (parName old d id vol).1 ∧ endsPar (parName old d id vol).1 = true := by
  have hvol : isFile (get d (freeVol d id d.length vol).1) = false ∧ id <+: (freeVol d id d.length vol).1 ∧ endsPar (freeVol d id d.length vol).1 = true := by
    obtain ⟨h1, i, -, h2⟩ := freeVol_free d id vol
    rw [h2] at h1 ⊢
    exact ⟨h1, List.prefix_append _ _, parDest_ends id i⟩
  unfold parName
  cases hs : volSuffix old with
  | none => exact hvol
  | some s =>
    dsimp only
    cases hf : isFile (get d (id ++ s)) with
    | true => rw [if_pos rfl]; exact hvol
    | false =>
      rw [if_neg Bool.false_ne_true]
      exact ⟨hf, List.prefix_append _ _, endsPar_append (volSuffix_spec old s hs).2.2⟩

example : parName (lit "x.vol03+04.par2") [] (lit "1234") 1 = (lit "1234.vol03+04.par2", 1) ∧
    parName (lit "x") [(lit "1234.vol001+01.PAR2", .file [1])] (lit "1234") 1 = (lit "1234.vol002+01.PAR2", 3) := by decide +kernel

/-! ### The files on the disk -/

/-- The name a file gets from the par2-files. -/
def target (hashes : List (Bytes × Bytes)) (f : Done) : Option Bytes := if f.par then none else regularName f.name hashes f.hash

/-- Nothing is in the way: the files exist under different names, the new names are different, they are free and they are not those of par2-files. -/
structure Clear (hashes : List (Bytes × Bytes)) (d : Dir) (l : List Done) : Prop where
  exist : ∀ f ∈ l, ∃ data, get d f.name = some (.file data)
  names : (l.map (·.name)).Nodup
  free : ∀ f ∈ l, ∀ t, target hashes f = some t → get d t = none ∧ endsPar t = false
  differ : l.Pairwise (fun f g => ∀ t, target hashes f = some t → target hashes g ≠ some t)

theorem get_moved {d : Dir} {old new k : Bytes} {x : Node} : get (put (del d old) new x) k = if new = k then some x else if old = k then none else get d k := by
  rw [get_put', get_del]

/-- What a new name is. -/
theorem newName_some {pars : Bool} {hashes : List (Bytes × Bytes)} {st : Loop} {f : Done} {new : Bytes}
    (h : (newName pars hashes st f.par f.name f.setId f.hash).1 = some new) :
    target hashes f = some new ∨ (f.par = true ∧ endsPar new = true ∧ isFile (get st.dir new) = false) := by
  unfold newName at h
  unfold target
  by_cases h1 : (f.par && pars) = true
  · rw [if_pos h1] at h
    right
    have hp := parName_spec f.name st.dir f.setId st.vol
    rw [← Option.some.inj h]
    exact ⟨(Bool.and_eq_true _ _ ▸ h1).1, hp.2.2, hp.1⟩
  · rw [if_neg h1] at h
    cases hf : f.par with
    | false =>
      rw [hf] at h
      left
      rw [if_neg Bool.false_ne_true]
      exact h
    | true =>
      rw [hf] at h
      exact nomatch h

/-- What one step does: nothing, or the file is moved to a free name. -/
theorem stepDone_spec {env : Env} {pars : Bool} {hashes : List (Bytes × Bytes)} {st : Loop} {f : Done} {l : List Done} (h : Clear hashes st.dir (f :: l)) :
    ((stepDone env pars hashes st f).1.dir = st.dir ∧ (stepDone env pars hashes st f).2 = f) ∨
    ∃ new data, get st.dir f.name = some (.file data) ∧ get st.dir new = none ∧
      (stepDone env pars hashes st f).1.dir = put (del st.dir f.name) new (.file data) ∧ (stepDone env pars hashes st f).2.name = new ∧
      (target hashes f = some new ∨ endsPar new = true) := by
  unfold stepDone
  dsimp only
  cases hn : (newName pars hashes st f.par f.name f.setId f.hash).1 with
  | none => exact Or.inl ⟨rfl, rfl⟩
  | some new =>
    dsimp only
    obtain ⟨data, hd⟩ := h.exist f List.mem_cons_self
    have hr : renameDisk env st.dir f.name new = if env.ren f.name new && renameOk (get st.dir new) (.file data) then some (put (del st.dir f.name) new (.file data)) else none := by
      unfold renameDisk
      rw [hd]
    rw [hr]
    by_cases hc : (env.ren f.name new && renameOk (get st.dir new) (.file data)) = true
    · rw [if_pos hc]
      right
      refine ⟨new, data, hd, ?_, rfl, rfl, ?_⟩
      · rcases newName_some hn with ht | ⟨-, -, hfile⟩
        · exact (h.free f List.mem_cons_self new ht).1
        · cases hg : get st.dir new with
          | none => rfl
          | some y =>
            rw [hg] at hc hfile
            cases y with
            | file _ => exact nomatch hfile
            | dir _ => simp [renameOk] at hc
      · rcases newName_some hn with ht | ht
        · exact Or.inl ht
        · exact Or.inr ht.2.1
    · rw [if_neg hc]
      exact Or.inl ⟨rfl, rfl⟩

theorem clear_tail {hashes : List (Bytes × Bytes)} {d : Dir} {f : Done} {l : List Done} (h : Clear hashes d (f :: l)) : Clear hashes d l := by
  have hn := h.names
  rw [List.map_cons, List.nodup_cons] at hn
  exact ⟨fun g hg => h.exist g (List.mem_cons_of_mem _ hg), hn.2, fun g hg => h.free g (List.mem_cons_of_mem _ hg), (List.pairwise_cons.1 h.differ).2⟩

theorem clear_moved {hashes : List (Bytes × Bytes)} {d : Dir} {f : Done} {l : List Done} {new data : Bytes} (h : Clear hashes d (f :: l))
    (hn : get d new = none) (ht : target hashes f = some new ∨ endsPar new = true) : Clear hashes (put (del d f.name) new (.file data)) l := by
  have ht' := clear_tail h
  have hnm := h.names
  rw [List.map_cons, List.nodup_cons] at hnm
  refine ⟨fun g hg => ?_, ht'.names, fun g hg t htg => ?_, ht'.differ⟩
  · obtain ⟨y, hy⟩ := ht'.exist g hg
    refine ⟨y, ?_⟩
    rw [get_moved, if_neg (fun e => by rw [e, hy] at hn; exact nomatch hn), if_neg (fun e => hnm.1 (by rw [e]; exact List.mem_map.2 ⟨g, hg, rfl⟩))]
    exact hy
  · obtain ⟨hf, he⟩ := ht'.free g hg t htg
    refine ⟨?_, he⟩
    have hne : new ≠ t := by
      rintro rfl
      rcases ht with ht | ht
      · exact (List.pairwise_cons.1 h.differ).1 g hg new ht htg
      · rw [he] at ht; exact nomatch ht
    rw [get_moved, if_neg hne]
    by_cases hc : f.name = t
    · rw [if_pos hc]
    · rw [if_neg hc]; exact hf

theorem loop_kept (env : Env) (pars : Bool) (hashes : List (Bytes × Bytes)) (l : List Done) : ∀ st : Loop, Clear hashes st.dir l →
    (mapSt (stepDone env pars hashes) st l).2.length = l.length ∧
    (∀ p ∈ l.zip (mapSt (stepDone env pars hashes) st l).2, get (mapSt (stepDone env pars hashes) st l).1.dir p.2.name = get st.dir p.1.name) ∧
    (∀ m x, m ∉ l.map (·.name) → get st.dir m = some x → get (mapSt (stepDone env pars hashes) st l).1.dir m = some x) := by
  induction l with
  | nil => intro st h; exact ⟨rfl, fun p hp => absurd hp List.not_mem_nil, fun m x _ h => h⟩
  | cons f l ih =>
    intro st h
    have hnm := h.names
    rw [List.map_cons, List.nodup_cons] at hnm
    unfold mapSt
    dsimp only
    rcases stepDone_spec (env := env) (pars := pars) h with ⟨h1, h2⟩ | ⟨new, data, h1, h2, h3, h4, h5⟩
    · obtain ⟨i1, i2, i3⟩ := ih (stepDone env pars hashes st f).1 (by rw [h1]; exact clear_tail h)
      refine ⟨by rw [List.length_cons, i1, List.length_cons], fun p hp => ?_, fun m x hm hx => ?_⟩
      · rw [List.zip_cons_cons] at hp
        rcases List.mem_cons.1 hp with rfl | hp
        · dsimp only
          rw [h2]
          obtain ⟨y, hy⟩ := h.exist f List.mem_cons_self
          rw [hy]
          exact i3 _ _ hnm.1 (by rw [h1]; exact hy)
        · rw [i2 p hp, h1]
      · rw [List.map_cons] at hm
        exact i3 m x (fun q => hm (List.mem_cons_of_mem _ q)) (by rw [h1]; exact hx)
    · obtain ⟨i1, i2, i3⟩ := ih (stepDone env pars hashes st f).1 (by rw [h3]; exact clear_moved h h2 h5)
      refine ⟨by rw [List.length_cons, i1, List.length_cons], fun p hp => ?_, fun m x hm hx => ?_⟩
      · rw [List.zip_cons_cons] at hp
        rcases List.mem_cons.1 hp with rfl | hp
        · dsimp only
          rw [h4, h1]
          refine i3 _ _ (fun q => ?_) (by rw [h3, get_moved, if_pos rfl])
          obtain ⟨g, hg, he⟩ := List.mem_map.1 q
          obtain ⟨y, hy⟩ := h.exist g (List.mem_cons_of_mem _ hg)
          rw [he, h2] at hy
          exact nomatch hy
        · rw [i2 p hp, h3]
          have hpm := (List.of_mem_zip hp).1
          obtain ⟨y, hy⟩ := h.exist p.1 (List.mem_cons_of_mem _ hpm)
          rw [get_moved, if_neg (fun e => by rw [e, hy] at h2; exact nomatch h2), if_neg (fun e => hnm.1 (by rw [e]; exact List.mem_map.2 ⟨p.1, hpm, rfl⟩))]
      · rw [List.map_cons] at hm
        refine i3 m x (fun q => hm (List.mem_cons_of_mem _ q)) ?_
        rw [h3, get_moved, if_neg (fun e => by rw [e, hx] at h2; exact nomatch h2), if_neg (fun e => hm (by rw [← e]; exact List.mem_cons_self))]
        exact hx

/-- Files which are not on the disk yet are renamed only in the queue. -/
theorem loop_unwritten (env : Env) (pars : Bool) (hashes : List (Bytes × Bytes)) (l : List File) : ∀ st : Loop, (∀ f ∈ l, written f = false) →
    (mapSt (stepFile env pars hashes) st l).1.dir = st.dir := by
  induction l with
  | nil => intro st h; rfl
  | cons f l ih =>
    intro st h
    have h1 : (stepFile env pars hashes st f).1.dir = st.dir := by
      unfold stepFile
      dsimp only
      cases (newName pars hashes st f.par f.name f.setId f.hash).1 with
      | none => rfl
      | some new =>
        dsimp only
        rw [h f List.mem_cons_self]
        rfl
    unfold mapSt
    dsimp only
    rw [ih _ (fun g hg => h g (List.mem_cons_of_mem _ hg)), h1]

/-- C121, partial: if nothing is in the way, every completed file has the same contents under its new name, and all other files in the directory are untouched. What is
missing: without the condition files are lost (`swapped_lost`, `same_start_lost`). -/
theorem completed_kept_partial (env : Env) (d : Dir) (n : Nzb) (hashes : List (Bytes × Bytes)) (hw : ∀ f ∈ n.files, written f = false) (hc : Clear hashes d n.done) :
    (renameFiles env d n hashes).2.1.done.length = n.done.length ∧
    (∀ p ∈ n.done.zip (renameFiles env d n hashes).2.1.done, get (renameFiles env d n hashes).1 p.2.name = get d p.1.name) ∧
    (∀ m x, m ∉ n.done.map (·.name) → get d m = some x → get (renameFiles env d n hashes).1 m = some x) := by
  unfold renameFiles
  dsimp only
  have h1 := loop_unwritten env (needPars n) hashes n.files ⟨d, 1, 0⟩ hw
  have h2 := loop_kept env (needPars n) hashes n.done (mapSt (stepFile env (needPars n) hashes) ⟨d, 1, 0⟩ n.files).1 (by rw [h1]; exact hc)
  rw [h1] at h2
  exact h2

/-- The files for the examples. -/
def exampleDone : List Done := [⟨1, lit "q1", [], false, [1], []⟩, ⟨2, lit "q2", [], false, [2], []⟩]
def exampleHashes : List (Bytes × Bytes) := [(lit "movie.rar", [1]), (lit "movie.r00", [2])]
def exampleDir : Dir := [(lit "q1", .file [10]), (lit "q2", .file [20]), (lit "z", .file [30])]

example : Clear exampleHashes exampleDir exampleDone := by
  refine ⟨?_, by decide +kernel, ?_, by decide +kernel⟩
  · intro f hf
    rcases List.mem_cons.1 hf with rfl | hf
    · exact ⟨[10], by decide +kernel⟩
    · exact ⟨[20], by rw [List.mem_singleton.1 hf]; decide +kernel⟩
  · intro f hf t ht
    rcases List.mem_cons.1 hf with rfl | hf
    · have : t = lit "movie.rar" := (Option.some.inj ht).symm
      subst this
      decide +kernel
    · rw [List.mem_singleton.1 hf] at ht
      have : t = lit "movie.r00" := (Option.some.inj ht).symm
      subst this
      decide +kernel

example : (renameFiles exampleEnv exampleDir ⟨[], exampleDone, true, true, false⟩ exampleHashes).2.1.done.map (·.name) = [lit "movie.rar", lit "movie.r00"] := by decide +kernel

/-- C121: the par2-files get new names if one of them has another extension, or if two of one set belong to different collections by their names. -/
theorem needPars_iff (n : Nzb) : needPars n = true ↔ (∃ p ∈ collect n, endsPar p.name = false) ∨
    ∃ (i j : Nat) (p q : Par), i ≠ j ∧ (collect n)[i]? = some p ∧ (collect n)[j]? = some q ∧ p.setId = q.setId ∧ ParName.same false p.name q.name = false := by
  unfold needPars
  rw [Bool.or_eq_true, List.any_eq_true, List.any_eq_true]
  refine or_congr ⟨?_, ?_⟩ ⟨?_, ?_⟩
  · rintro ⟨p, hp, h⟩
    exact ⟨p, hp, by simpa using h⟩
  · rintro ⟨p, hp, h⟩
    exact ⟨p, hp, by simp [h]⟩
  · rintro ⟨⟨p, i⟩, hp, h⟩
    rw [List.any_eq_true] at h
    obtain ⟨⟨q, j⟩, hq, h⟩ := h
    rw [List.mem_zipIdx_iff_getElem?] at hp hq
    simp only [Bool.and_eq_true, bne_iff_ne, beq_iff_eq, Bool.not_eq_true'] at h
    exact ⟨i, j, p, q, h.1.1, hp, hq, h.1.2, h.2⟩
  · rintro ⟨i, j, p, q, h1, h2, h3, h4, h5⟩
    refine ⟨(p, i), List.mem_zipIdx_iff_getElem?.2 h2, List.any_eq_true.2 ⟨(q, j), List.mem_zipIdx_iff_getElem?.2 h3, ?_⟩⟩
    simp only [Bool.and_eq_true, bne_iff_ne, beq_iff_eq, Bool.not_eq_true']
    exact ⟨⟨h1, h4⟩, h5⟩

/-- C121: a file of the queue which is not on the disk yet gets its new name, and its old name is remembered if there is none. -/
theorem queued_renamed (env : Env) (pars : Bool) (hashes : List (Bytes × Bytes)) (st : Loop) (f : File) (hw : written f = false) (hp : f.par = false) :
    stepFile env pars hashes st f = match regularName f.name hashes f.hash with
      | some new => ({ st with count := st.count + 1 }, { f with name := new, orig := if f.orig = [] then f.name else f.orig })
      | none => (st, f) := by
  unfold stepFile newName
  rw [hp, hw]
  dsimp only
  rw [if_neg (by simp), if_pos (show (!false) = true from rfl)]
  cases regularName f.name hashes f.hash with
  | none => rfl
  | some new =>
    dsimp only
    rw [if_pos (show (!false) = true from rfl)]
    unfold renamed
    cases hf : f.orig <;> simp [hp]

/-- Par2-files keep their names if there is no need. -/
theorem pars_stay (env : Env) (hashes : List (Bytes × Bytes)) (st : Loop) (f : Done) (hp : f.par = true) : stepDone env false hashes st f = (st, f) := by
  unfold stepDone newName
  rw [hp]
  rfl

/-- C121: which names the par2-files give: those of the completed ones which can be read, up to the first source file without description. -/
theorem loadAll_mem (env : Env) (d : Dir) (done : List Done) (e : Bytes × Bytes) : e ∈ loadAll env d done ↔
    ∃ f ∈ done, f.par = true ∧ ∃ data l a b, get d f.name = some (.file data) ∧ env.load data = some l ∧ l = a ++ some e :: b ∧ ∀ x ∈ a, x ≠ none := by
  have hdesc : ∀ l, e ∈ described l ↔ ∃ a b, l = a ++ some e :: b ∧ ∀ x ∈ a, x ≠ none := by
    intro l
    induction l with
    | nil => exact ⟨fun h => absurd h List.not_mem_nil, fun ⟨a, b, h, _⟩ => by simp at h⟩
    | cons x l ih =>
      cases x with
      | none =>
        refine ⟨fun h => absurd h List.not_mem_nil, fun ⟨a, b, h, ha⟩ => ?_⟩
        cases a with
        | nil => exact nomatch h
        | cons y a =>
          have := (List.cons.inj h).1
          exact absurd this.symm (ha y List.mem_cons_self)
      | some y =>
        unfold described
        rw [List.mem_cons, ih]
        constructor
        · rintro (rfl | ⟨a, b, h, ha⟩)
          · exact ⟨[], l, rfl, fun x hx => absurd hx List.not_mem_nil⟩
          · refine ⟨some y :: a, b, by rw [h]; rfl, fun x hx => ?_⟩
            rcases List.mem_cons.1 hx with rfl | hx
            · exact fun h => nomatch h
            · exact ha x hx
        · rintro ⟨a, b, h, ha⟩
          cases a with
          | nil => exact Or.inl (Option.some.inj (List.cons.inj h).1).symm
          | cons z a => exact Or.inr ⟨a, b, (List.cons.inj h).2, fun x hx => ha x (List.mem_cons_of_mem _ hx)⟩
  unfold loadAll
  rw [List.mem_flatMap]
  constructor
  · rintro ⟨f, hf, h⟩
    obtain ⟨hf1, hf2⟩ := List.mem_filter.1 hf
    cases hg : get d f.name with
    | none => rw [hg] at h; exact absurd h List.not_mem_nil
    | some x =>
      cases x with
      | dir _ => rw [hg] at h; exact absurd h List.not_mem_nil
      | file data =>
        rw [hg] at h
        dsimp only at h
        cases hl : env.load data with
        | none => rw [hl] at h; exact absurd h List.not_mem_nil
        | some l =>
          rw [hl] at h
          obtain ⟨a, b, h1, h2⟩ := (hdesc l).1 h
          exact ⟨f, hf1, hf2, data, l, a, b, hg, hl, h1, h2⟩
  · rintro ⟨f, hf, hp, data, l, a, b, hg, hl, h1, h2⟩
    refine ⟨f, List.mem_filter.2 ⟨hf, hp⟩, ?_⟩
    rw [hg]
    dsimp only
    rw [hl]
    exact (hdesc l).2 ⟨a, b, h1, h2⟩

/-! ### Where files are lost -/

theorem eqNoCase_self (a : Bytes) : Rpc.eqNoCase a a = true := beq_self_eq_true _

/-- Refutation: if two completed files have got the names of each other, the second one is lost. -/
theorem swapped_lost (env : Env) (hen : ∀ a b, env.ren a b = true) (a b ha hb x y : Bytes) (hab : Rpc.eqNoCase a b = false) (hh : ha ≠ hb) (h1 : ha ≠ []) (h2 : hb ≠ [])
    (w l : Bool) :
    let n : Nzb := ⟨[], [⟨1, a, [], false, ha, []⟩, ⟨2, b, [], false, hb, []⟩], w, l, false⟩
    let r := renameFiles env [(a, .file x), (b, .file y)] n [(b, ha), (a, hb)]
    get r.1 a = some (.file x) ∧ get r.1 b = none ∧ r.2.1.done.map (·.name) = [b, a] ∧ r.2.2 = 2 := by
  have hne : a ≠ b := by rintro rfl; rw [eqNoCase_self] at hab; exact nomatch hab
  have hba : Rpc.eqNoCase b a = false := by
    unfold Rpc.eqNoCase at hab ⊢
    rw [beq_eq_false_iff_ne] at hab ⊢
    exact fun e => hab e.symm
  have r1 : regularName a [(b, ha), (a, hb)] ha = some b := by
    unfold regularName
    rw [if_neg (fun e => h1 (List.isEmpty_iff.1 e)), List.find?_cons, beq_self_eq_true]
    dsimp only
    rw [hab, if_neg Bool.false_ne_true]
  have r2 : regularName b [(b, ha), (a, hb)] hb = some a := by
    unfold regularName
    rw [if_neg (fun e => h2 (List.isEmpty_iff.1 e)), List.find?_cons, beq_false_of_ne hh, List.find?_cons, beq_self_eq_true]
    dsimp only
    rw [hba, if_neg Bool.false_ne_true]
  have d1 : renameDisk env [(a, .file x), (b, .file y)] a b = some [(b, .file x)] := by
    unfold renameDisk
    have g1 : get [(a, .file x), (b, .file y)] a = some (.file x) := by simp [Files.get]
    have g2 : get [(a, .file x), (b, .file y)] b = some (.file y) := by simp [Files.get, hne]
    rw [g1]
    dsimp only
    rw [g2, hen, Bool.true_and, if_pos (show renameOk _ _ = true from rfl)]
    simp [put, del]
  have d2 : renameDisk env [(b, .file x)] b a = some [(a, .file x)] := by
    unfold renameDisk
    have g1 : get [(b, .file x)] b = some (.file x) := by simp [Files.get]
    have g2 : get [(b, .file x)] a = none := by simp [Files.get, hne.symm]
    rw [g1]
    dsimp only
    rw [g2, hen, Bool.true_and, if_pos (show renameOk _ _ = true from rfl)]
    simp [put, del]
  simp [renameFiles, mapSt, stepDone, newName, r1, r2, d1, d2, Files.get, hne]

/-- Refutation: of two completed files which start alike only the second one is kept. -/
theorem same_start_lost (env : Env) (hen : ∀ a b, env.ren a b = true) (a b c h x y : Bytes) (hab : a ≠ b) (hac : Rpc.eqNoCase a c = false) (hbc : Rpc.eqNoCase b c = false)
    (h1 : h ≠ []) (w l : Bool) :
    let n : Nzb := ⟨[], [⟨1, a, [], false, h, []⟩, ⟨2, b, [], false, h, []⟩], w, l, false⟩
    let r := renameFiles env [(a, .file x), (b, .file y)] n [(c, h)]
    r.1 = [(c, .file y)] ∧ r.2.1.done.map (·.name) = [c, c] ∧ r.2.2 = 2 := by
  have hca : a ≠ c := by rintro rfl; rw [eqNoCase_self] at hac; exact nomatch hac
  have hcb : b ≠ c := by rintro rfl; rw [eqNoCase_self] at hbc; exact nomatch hbc
  have r : ∀ n, Rpc.eqNoCase n c = false → regularName n [(c, h)] h = some c := by
    intro n hn
    unfold regularName
    rw [if_neg (fun e => h1 (List.isEmpty_iff.1 e)), List.find?_cons, beq_self_eq_true]
    dsimp only
    rw [hn, if_neg Bool.false_ne_true]
  have d1 : renameDisk env [(a, .file x), (b, .file y)] a c = some [(c, .file x), (b, .file y)] := by
    unfold renameDisk
    have g1 : get [(a, .file x), (b, .file y)] a = some (.file x) := by simp [Files.get]
    have g2 : get [(a, .file x), (b, .file y)] c = none := by simp [Files.get, hca, hcb]
    rw [g1]
    dsimp only
    rw [g2, hen, Bool.true_and, if_pos (show renameOk _ _ = true from rfl)]
    simp [put, del, hab.symm, hcb]
  have d2 : renameDisk env [(c, .file x), (b, .file y)] b c = some [(c, .file y)] := by
    unfold renameDisk
    have g1 : get [(c, .file x), (b, .file y)] b = some (.file y) := by simp [Files.get, hcb.symm]
    have g2 : get [(c, .file x), (b, .file y)] c = some (.file x) := by simp [Files.get]
    rw [g1]
    dsimp only
    rw [g2, hen, Bool.true_and, if_pos (show renameOk _ _ = true from rfl)]
    simp [put, del]
  simp [renameFiles, mapSt, stepDone, newName, r a hac, r b hbc, d1, d2]

/-- Refutation: a file which is on the disk and still in the queue is renamed on the disk, but it is kept under its old name as completed. -/
theorem written_stale (env : Env) (hen : ∀ a b, env.ren a b = true) (d : Dir) (f : File) (hashes : List (Bytes × Bytes)) (new data : Bytes) (pars : Bool) (vol count : Nat) (hp : f.par = false)
    (ho : f.output = some f.name) (hw : (lit ".out.tmp").isSuffixOf f.name = false) (hg : get d f.name = some (.file data)) (hn : get d new = none)
    (hr : regularName f.name hashes f.hash = some new) :
    let r := stepFile env pars hashes ⟨d, vol, count⟩ f
    get r.1.dir new = some (.file data) ∧ get r.1.dir (completedName r.2) = none ∧ r.2.name = new := by
  have hne : new ≠ f.name := fun e => by rw [e, hg] at hn; exact nomatch hn
  have hwr : written f = true := by unfold written; rw [ho]; dsimp only; rw [hw]; rfl
  have hd : renameDisk env d f.name new = some (put (del d f.name) new (.file data)) := by
    unfold renameDisk
    rw [hg]
    dsimp only
    rw [hn, hen]
    rfl
  have hs : stepFile env pars hashes ⟨d, vol, count⟩ f = (⟨put (del d f.name) new (.file data), vol, count + 1⟩, renamed f new) := by
    unfold stepFile newName
    dsimp only
    rw [hp, hr]
    simp [hwr, hd]
  dsimp only
  rw [hs]
  dsimp only
  refine ⟨by rw [get_moved, if_pos rfl], ?_, rfl⟩
  rw [show completedName (renamed f new) = f.name by unfold completedName renamed; dsimp only; rw [ho]; rfl, get_moved, if_neg hne, if_pos rfl]

example : (stepFile exampleEnv false exampleHashes ⟨exampleDir, 1, 0⟩ ⟨1, lit "q1", [], false, [1], [], 5, false, false, some (lit "q1")⟩).2.name = lit "movie.rar" := by decide +kernel

/-- **Renaming happens once**: after it neither a check nor the completion of further files starts it again or unpauses anything. -/
theorem renamed_once (sort : List File → List Par → List Par) (env : Env) (d : Dir) (n : Nzb) (hashes : List (Bytes × Bytes)) (fs : List File) :
    let n1 := fs.foldl (fun m f => (fileDone sort m f).1) (renameFiles env d n hashes).2.1
    checkState sort n1 = (n1, false) ∧ n1.files = (renameFiles env d n hashes).2.1.files.filter (fun g => !fs.any (fun f => g.id == f.id)) := by
  have key : ∀ (fs : List File) (m : Nzb), m.finished = true →
      (fs.foldl (fun m f => (fileDone sort m f).1) m).finished = true ∧
      (fs.foldl (fun m f => (fileDone sort m f).1) m).files = m.files.filter (fun g => !fs.any (fun f => g.id == f.id)) := by
    intro fs
    induction fs with
    | nil => intro m hm; exact ⟨hm, (List.filter_eq_self.2 (fun _ _ => rfl)).symm⟩
    | cons f fs ih =>
      intro m hm
      have h1 : (fileDone sort m f).1 = { m with files := m.files.filter (fun g => g.id != f.id), done := m.done ++ [⟨f.id, completedName f, f.orig, f.par, f.hash, f.setId⟩] } := by
        unfold fileDone checkState
        simp only [hm, if_true]
      obtain ⟨a, b⟩ := ih (fileDone sort m f).1 (by rw [h1]; exact hm)
      refine ⟨a, ?_⟩
      rw [List.foldl_cons, b, h1]
      dsimp only
      rw [List.filter_filter]
      congr 1
      funext g
      simp only [List.any_cons, Bool.not_or, bne]
      exact Bool.and_comm _ _
  obtain ⟨a, b⟩ := key fs (renameFiles env d n hashes).2.1 rfl
  refine ⟨?_, b⟩
  unfold checkState
  rw [if_pos a]

end Verif.DirectRename
