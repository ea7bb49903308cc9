import Verif.DelTreeProps

/-
What a user relies on when a directory is deleted (C124), and where it is not so.
-/
namespace Verif.DelTree
open CStr

/-- Neither a link nor a path over 1023 bytes at `p` or below it. -/
structure Tame (fs : Fs) (p : Path) : Prop where
  plain : ∀ e ∈ fs, p <+: e.1 → ∀ t, e.2 ≠ .link t
  short : ∀ e ∈ fs, p <+: e.1 → (text e.1).length ≤ 1023

/-- No more than `D` levels. -/
def Levels (D : Nat) (fs : Fs) (p : Path) : Prop := ∀ e ∈ fs, p <+: e.1 → e.1.length < p.length + D

theorem names_real {fs : Fs} (hw : Wf fs) {p : Path} (h : Real fs p) : ∀ n ∈ p, GoodName n := by
  by_cases hp : p = []
  · simp [hp]
  · exact hw.names _ (mem_of_kindOf hp (h p (List.prefix_refl _)))

theorem ready_real {fs : Fs} (hw : Wf fs) {p : Path} (h : Real fs p) (ht : Tame fs p) : Ready true fs p p :=
  ⟨hw, h p (List.prefix_refl _), ht.plain, fun _ _ hr => ht.short _ hr (List.prefix_append _ _), leads_real h, names_real hw h⟩

/-- Deleting a directory: what is outside stays, what is inside goes with the directory. Only what the system refuses to remove
stays, with the directories it is in, and then `false` is returned. -/
theorem delete_inside (locked : Path → Bool) (D : Nat) (fs : Fs) (p : Path) (hw : Wf fs) (hr : Real fs p) (hp : p ≠ []) (ht : Tame fs p)
    (hD : Levels D fs p) :
    ∃ after ok, delTree locked D fs (text p) = some (after, ok) ∧
      (∀ e, e ∈ after ↔ e ∈ fs ∧ (¬ p <+: e.1 ∨ ∃ f ∈ fs, e.1 <+: f.1 ∧ locked f.1 = true)) ∧
      (ok = true ↔ ∀ f ∈ fs, p <+: f.1 → locked f.1 = false) := by
  refine ⟨_, _, tree_spec locked D fs p p (ready_real hw hr ht) hp hD, ?_, ?_⟩
  · intro e
    rw [List.mem_filter]
    simp [stuck, ← List.isPrefixOf_iff_prefix]
  · simp [stuck, ← List.isPrefixOf_iff_prefix]

/-- If the system refuses nothing, exactly the directory and what is in it is gone. -/
theorem delete_all (D : Nat) (fs : Fs) (p : Path) (hw : Wf fs) (hr : Real fs p) (hp : p ≠ []) (ht : Tame fs p) (hD : Levels D fs p) :
    delTree (fun _ => false) D fs (text p) = some (fs.filter (fun e => !p.isPrefixOf e.1), true) := by
  rw [tree_spec (fun _ => false) D fs p p (ready_real hw hr ht) hp hD]
  have : ∀ q, stuck (fun _ => false) fs q = false := fun q => by simp [stuck]
  simp [this]

theorem remove_dir_spec (locked : Path → Bool) (fs : Fs) (a p : Path) (h : Ready true fs a p) (hp : p ≠ []) :
    removeDir locked fs (text a) = if locked p = true ∨ children fs p ≠ [] then (fs, false) else (unlink fs p, true) := by
  have hst : walk fs false 40 a = some p := by
    have := h.leads _ (agree_refl p _) h.dir [] false (.inr (.inr rfl)) trivial
    simpa using this
  unfold removeDir lstat
  rw [parts_text a h.good, hst]
  dsimp only
  by_cases hl : locked p = true
  · rw [if_pos (.inr hl), if_pos (.inl hl)]
  · rw [if_neg (by simp [hp, hl])]
    by_cases hc : children fs p = []
    · rw [if_pos ⟨h.dir, hc⟩, if_neg (by simp [hl, hc])]
    · rw [if_neg (fun q => hc q.2), if_pos (.inr hc)]

/-- The careful way (used for directories of categories and of downloads): a directory with a name without a leading dot is not touched,
another goes as above. -/
theorem careful (locked : Path → Bool) (D : Nat) (fs : Fs) (p : Path) (hw : Wf fs) (hr : Real fs p) (hp : p ≠ []) (ht : Tame fs p)
    (hD : Levels D fs p) :
    ((∀ n k, (p ++ [n], k) ∈ fs → n.head? = some 46) → delDirectory locked D fs (text p) = delTree locked D fs (text p)) ∧
    (∀ n k, (p ++ [n], k) ∈ fs → n.head? ≠ some 46 → delDirectory locked D fs (text p) = some (fs, false)) := by
  suffices hs : delDirectory locked D fs (text p) =
      @ite _ (∀ n k, (p ++ [n], k) ∈ fs → n.head? = some 46) (Classical.propDecidable _) (delTree locked D fs (text p)) (some (fs, false)) by
    refine ⟨fun q => by rw [hs, if_pos q], fun n k hk hn => by rw [hs, if_neg (fun q => hn (q n k hk))]⟩
  have h := ready_real hw hr ht
  have hts := tree_spec locked D fs p p h hp hD
  have hrm := remove_dir_spec locked fs p p h hp
  have hany : (browse fs (text p)).any (fun n => n.head? != some 46) = true ↔ ¬ ∀ n k, (p ++ [n], k) ∈ fs → n.head? = some 46 := by
    rw [browse_ready h, List.any_eq_true]
    constructor
    · rintro ⟨n, hn, hx⟩ q
      obtain ⟨k, hk⟩ := mem_children.1 hn
      rw [q n k hk] at hx
      simp at hx
    · intro q
      apply Classical.byContradiction
      intro hne
      apply q
      intro n k hk
      apply Classical.byContradiction
      intro hx
      exact hne ⟨n, mem_children.2 ⟨k, hk⟩, by simpa using hx⟩
  unfold delDirectory
  dsimp only
  by_cases he : locked p = true ∨ children fs p ≠ []
  · rw [if_pos he] at hrm
    rw [hrm]
    simp only [Bool.false_eq_true, if_false]
    by_cases hq : ∀ n k, (p ++ [n], k) ∈ fs → n.head? = some 46
    · rw [if_neg (fun q => hany.1 q hq), if_pos hq, hts]
      dsimp only
      cases hs : stuck locked fs p
      · simp
      · simp only [Bool.not_true, Bool.false_eq_true, if_false]
        have hrest : Rest locked p (fun q => !p.isPrefixOf q || stuck locked fs q) := by
          refine ⟨fun q hq => ?_, by simp [hs], fun q n hq => ?_⟩
          · have : p.isPrefixOf q = false := by
              cases e : p.isPrefixOf q
              · rfl
              · exact absurd (List.isPrefixOf_iff_prefix.1 e) hq
            simp [this]
          · cases e : p.isPrefixOf q
            · rfl
            · have e2 : p.isPrefixOf (q ++ [n]) = true :=
                List.isPrefixOf_iff_prefix.2 ((List.isPrefixOf_iff_prefix.1 e).trans (List.prefix_append _ _))
              simp only [e2, Bool.not_true, Bool.false_or] at hq
              simp [stuck_up hq]
        have h1 := ready_filter h hrest
        rw [remove_dir_spec locked _ p p h1 hp, if_pos]
        by_cases hl : locked p = true
        · exact .inl hl
        · right
          have hsp := stuck_split (locked := locked) hw hp h.dir
          have hl' : locked p = false := by simpa using hl
          rw [hs, hl', Bool.false_or] at hsp
          have hsp := hsp.symm
          simp only [Bool.not_eq_true', List.all_eq_false] at hsp
          obtain ⟨n, hn, hx⟩ := hsp
          obtain ⟨k, hk⟩ := mem_children.1 hn
          have hx : stuck locked fs (p ++ [n]) = true := by simpa using hx
          intro q
          have : n ∈ children (fs.filter (fun e => !p.isPrefixOf e.1 || stuck locked fs e.1)) p :=
            mem_children.2 ⟨k, List.mem_filter.2 ⟨hk, by simp [hx]⟩⟩
          rw [q] at this
          simp at this
    · rw [if_pos (hany.2 hq), if_neg hq]
  · rw [if_neg he] at hrm
    rw [hrm]
    simp only [if_true]
    have hl : locked p = false := by
      cases e : locked p
      · rfl
      · exact absurd (.inl e) he
    have hc : children fs p = [] := Classical.byContradiction (fun q => he (.inr q))
    have hq : ∀ n k, (p ++ [n], k) ∈ fs → n.head? = some 46 := by
      intro n k hk
      have := mem_children.2 ⟨k, hk⟩
      rw [hc] at this
      simp at this
    rw [if_pos hq, hts]
    have hsp := stuck_split (locked := locked) hw hp h.dir
    rw [hl, hc] at hsp
    simp only [List.all_nil, Bool.not_true, Bool.or_false] at hsp
    rw [hsp]
    congr 1
    refine Prod.ext ?_ rfl
    unfold unlink
    apply List.filter_congr
    intro e he'
    by_cases q : e.1 = p
    · rw [q, hsp]; simp
    · have : ¬ p <+: e.1 := fun g => by
        have := below_child hw he' g q
        rw [hc] at this
        simp [gone] at this
      have : p.isPrefixOf e.1 = false := by
        cases z : p.isPrefixOf e.1
        · rfl
        · exact absurd (List.isPrefixOf_iff_prefix.1 z) this
      simp [this, q]

/-! ### Links are followed -/

/-- A directory with nothing but a link to another directory `t`: all that is in `t` is deleted, and the link with its directory stays. -/
theorem follows_link (D : Nat) (fs : Fs) (d t : Path) (n : Name) (hw : Wf fs) (hd : Real fs d) (hdne : d ≠ []) (hdt : (text (d ++ [n])).length ≤ 1023)
    (hone : children fs d = [n]) (hl : (d ++ [n], Kind.link t) ∈ fs) (ht : Real fs t) (hout : ¬ t <+: d ++ [n])
    (hplain : ∀ e ∈ fs, t <+: e.1 → ∀ u, e.2 ≠ .link u) (hshort : ∀ r k, (t ++ r, k) ∈ fs → (text (d ++ [n] ++ r)).length ≤ 1023)
    (hD : Levels (D + 1) fs t) :
    delTree (fun _ => false) (D + 2) fs (text d) = some (fs.filter (fun e => !(t.isPrefixOf e.1 && e.1 != t)), false) := by
  have hkl := kindOf_of_mem hw hl
  have hgd := names_real hw hd
  have hgood : ∀ m ∈ d ++ [n], GoodName m := hw.names _ hl
  have hgone : ∀ e ∈ fs, (!gone t (children fs t) e.1 || stuck (fun _ => false) fs e.1) = !(t.isPrefixOf e.1 && e.1 != t) := by
    intro e he
    have : stuck (fun _ => false) fs e.1 = false := by simp [stuck]
    rw [this, Bool.or_false]
    congr 1
    rw [Bool.eq_iff_iff, Bool.and_eq_true, List.isPrefixOf_iff_prefix]
    constructor
    · intro q
      obtain ⟨m, _, hm⟩ := gone_iff.1 q
      refine ⟨(List.prefix_append _ _).trans hm, ?_⟩
      simp only [bne_iff_ne, ne_eq]
      intro z
      rw [z] at hm
      exact not_below_self t m hm
    · rintro ⟨q, z⟩
      simp only [bne_iff_ne, ne_eq] at z
      exact below_child hw he q z
  have hready : Ready false fs (d ++ [n]) t :=
    ⟨hw, ht t (List.prefix_refl _), hplain, hshort, leads_link hd hkl ht hout, hgood⟩
  have hrest := rest_gone (fun _ => false) fs t (children fs t)
  -- the file system after the link
  have hfs1 : fs.filter (fun e => !gone t (children fs t) e.1 || stuck (fun _ => false) fs e.1) =
      fs.filter (fun e => !(t.isPrefixOf e.1 && e.1 != t)) := List.filter_congr hgone
  have hkeepk : ∀ q, ¬ t <+: q → kindOf (fs.filter (fun e => !gone t (children fs t) e.1 || stuck (fun _ => false) fs e.1)) q = kindOf fs q := by
    intro q hq
    rw [kindOf_filter (fun q => !gone t (children fs t) q || stuck (fun _ => false) fs q), if_pos (.inr (hrest.outside q hq))]
  have hreal1 : Real (fs.filter (fun e => !gone t (children fs t) e.1 || stuck (fun _ => false) fs e.1)) d := by
    intro q hq
    rw [hkeepk q (fun g => hout (g.trans (hq.trans (List.prefix_append _ _))))]
    exact hd q hq
  have hinner : delTree (fun _ => false) (D + 1) fs (text (d ++ [n])) =
      some (fs.filter (fun e => !gone t (children fs t) e.1 || stuck (fun _ => false) fs e.1), false) := by
    unfold delTree
    rw [browse_ready hready]
    have hD' : ∀ e ∈ fs, t <+: e.1 → e.1.length < t.length + 1 + D := fun e he hq => by have := hD e he hq; omega
    rw [names_spec (fun _ => false) (delTree (fun _ => false) D) false (d ++ [n]) t D
      (fun fs1 m hr hd => tree_spec (fun _ => false) D fs1 (d ++ [n] ++ [m]) (t ++ [m]) hr (by simp)
      (fun e he hq => by have := hd e he hq; simp only [List.length_append, List.length_singleton]; omega)) (children fs t) fs true hready hD'
      (nodup_children hw.once t) (fun _ q => q)]
    dsimp only
    have hwalk : ∀ (k : Path → Option Path) (q s : Path), q ++ s = d →
        walkWith k (fs.filter (fun e => !gone t (children fs t) e.1 || stuck (fun _ => false) fs e.1)) false q (s ++ [n]) = some (d ++ [n]) := by
      intro k q s
      induction s generalizing q with
      | nil =>
        intro e
        rw [List.append_nil] at e
        subst e
        rw [List.nil_append]
        unfold walkWith
        rw [hkeepk _ hout, hkl]
        simp
      | cons m s ih =>
        intro e
        rw [List.cons_append]
        unfold walkWith
        rw [hreal1 (q ++ [m]) ⟨s, by simpa using e⟩]
        exact ih (q ++ [m]) (by simpa using e)
    have hls : lstat (fs.filter (fun e => !gone t (children fs t) e.1 || stuck (fun _ => false) fs e.1)) (text (d ++ [n])) = some (d ++ [n]) := by
      unfold lstat
      rw [parts_text _ hgood]
      exact hwalk _ [] d rfl
    unfold removeDir
    rw [hls]
    dsimp only
    rw [if_neg (by simp), if_neg (by rw [hkeepk _ hout, hkl]; simp)]
    simp
  have hbd : browse fs (text d) = [n] := by
    unfold browse stat
    rw [parts_text d hgd]
    have : walk fs true 40 d = some d := by simpa using walk_real (r := []) true 40 hd trivial
    rw [this]
    simp [hd d (List.prefix_refl _), hone]
  have hfull : fullName (text d) n = text (d ++ [n]) := by
    have e : text (d ++ [n]) = text d ++ 47 :: n := by simp [text_append, text]
    unfold fullName
    rw [← e, List.take_of_length_le hdt]
  have hisdir : isDir fs (text (d ++ [n])) = true := by
    have := hready.leads fs (agree_refl t fs) hready.dir [] true (.inr (.inl rfl)) trivial
    unfold isDir stat
    rw [parts_text _ hgood]
    simp only [List.append_nil] at this
    rw [this]
    simp [hready.dir]
  unfold delTree
  rw [hbd]
  unfold delNames
  rw [hfull, if_pos hisdir, hinner]
  unfold delNames
  dsimp only
  have hlast : (removeDir (fun _ => false) (fs.filter (fun e => !gone t (children fs t) e.1 || stuck (fun _ => false) fs e.1)) (text d)).1 =
      fs.filter (fun e => !gone t (children fs t) e.1 || stuck (fun _ => false) fs e.1) := by
    have hls : lstat (fs.filter (fun e => !gone t (children fs t) e.1 || stuck (fun _ => false) fs e.1)) (text d) = some d := by
      unfold lstat
      rw [parts_text d hgd]
      simpa using walk_real (r := []) false 40 hreal1 trivial
    unfold removeDir
    rw [hls]
    dsimp only
    rw [if_neg (by simp [hdne]), if_neg]
    rintro ⟨_, q⟩
    have : n ∈ children (fs.filter (fun e => !gone t (children fs t) e.1 || stuck (fun _ => false) fs e.1)) d :=
      mem_children.2 ⟨.link t, List.mem_filter.2 ⟨hl, hrest.outside _ hout⟩⟩
    rw [q] at this
    simp at this
  rw [hlast, hfs1]
  simp

/-! ### Long paths -/

theorem parts_slash (b : Bytes) : parts (b ++ [47]) = parts b := by
  simp [parts, List.foldr_append]

theorem same_place {fs : Fs} {b : Bytes} : isDir fs (b ++ [47]) = isDir fs b ∧ browse fs (b ++ [47]) = browse fs b := by
  simp [isDir, browse, stat, parts_slash]

/-- A directory, not empty, with a path of 1022 or 1023 bytes: the deletion never ends (the stack of the program overflows), whatever the depth. -/
theorem long_never_ends (locked : Path → Bool) (fs : Fs) (b : Bytes) (hb : b.length = 1022 ∨ b.length = 1023) (hd : isDir fs b = true)
    (hne : browse fs b ≠ []) (D : Nat) : delTree locked D fs b = none := by
  have h1023 : ∀ (D : Nat) (b : Bytes), b.length = 1023 → isDir fs b = true → browse fs b ≠ [] → delTree locked D fs b = none := by
    intro D
    induction D with
    | zero => intros; rfl
    | succ D ih =>
      intro b hb hd hne
      unfold delTree
      cases hbr : browse fs b with
      | nil => exact absurd hbr hne
      | cons n ns =>
        have hf : fullName b n = b := by
          unfold fullName
          rw [List.take_append_of_le_length (by omega), List.take_of_length_le (by omega)]
        unfold delNames
        rw [hf, if_pos hd, ih b hb hd hne]
  rcases hb with hb | hb
  · cases D with
    | zero => rfl
    | succ D =>
      unfold delTree
      cases hbr : browse fs b with
      | nil => exact absurd hbr hne
      | cons n ns =>
        have hf : fullName b n = b ++ [47] := by
          unfold fullName
          rw [show b ++ 47 :: n = (b ++ [47]) ++ n by simp, List.take_append_of_le_length (by simp [hb]), List.take_of_length_le (by simp [hb])]
        unfold delNames
        rw [hf, if_pos (by rw [same_place.1]; exact hd), h1023 D (b ++ [47]) (by simp [hb]) (by rw [same_place.1]; exact hd) (by rw [same_place.2]; exact hne)]
  · exact h1023 D b hb hd hne

/-! ### Examples -/

/-- `/d` with a file, a directory and a file in it; `/k` with a file; `/l` with a link to `/k`. -/
def demoFs : Fs :=
  [([lit "d"], .dir), ([lit "d", lit "a"], .file), ([lit "d", lit "s"], .dir), ([lit "d", lit "s", lit "b"], .file),
   ([lit "k"], .dir), ([lit "k", lit "mine"], .file), ([lit "l"], .dir), ([lit "l", lit "x"], .link [lit "k"])]

theorem demo_wf : Wf demoFs := by
  refine ⟨by decide +kernel, by decide +kernel, ?_⟩
  have : ∀ e ∈ demoFs, ∀ n ∈ e.1, n ≠ [] ∧ (47 : UInt8) ∉ n := by decide +kernel
  exact this

theorem real_of {fs : Fs} {p : Path} (h : ∀ i ∈ List.range (p.length + 1), kindOf fs (p.take i) = some .dir) : Real fs p := by
  intro q hq
  have := h q.length (List.mem_range.2 (by have := hq.length_le; omega))
  rwa [← List.prefix_iff_eq_take.1 hq] at this

def isLink : Kind → Bool
  | .link _ => true
  | _ => false

theorem plain_of {fs : Fs} {p : Path} (h : ∀ e ∈ fs, p <+: e.1 → isLink e.2 = false) : ∀ e ∈ fs, p <+: e.1 → ∀ t, e.2 ≠ .link t := by
  intro e he hp t q
  have := h e he hp
  rw [q] at this
  cases this

theorem demo_real : Real demoFs [lit "d"] ∧ Real demoFs [lit "k"] ∧ Real demoFs [lit "l"] :=
  ⟨real_of (by decide +kernel), real_of (by decide +kernel), real_of (by decide +kernel)⟩

theorem demo_tame : Tame demoFs [lit "d"] := ⟨plain_of (by decide +kernel), by decide +kernel⟩

/-- The directory `/d` is gone, the rest is there. -/
example : delTree (fun _ => false) 3 demoFs (lit "/d") =
    some ([([lit "k"], .dir), ([lit "k", lit "mine"], .file), ([lit "l"], .dir), ([lit "l", lit "x"], .link [lit "k"])], true) :=
  (delete_all 3 demoFs [lit "d"] demo_wf demo_real.1 (by decide) demo_tame (by unfold Levels; decide +kernel)).trans (by decide +kernel)

/-- One file can't be removed: it stays with its directories. -/
example : delTree (fun q => q == [lit "d", lit "s", lit "b"]) 3 demoFs (lit "/d") =
    some (([lit "d"], .dir) :: demoFs.drop 2, false) := by decide +kernel

/-- `/l` is to be deleted: the file in `/k` is, but `/l` stays. -/
theorem link_witness : delTree (fun _ => false) 3 demoFs (lit "/l") = some (demoFs.filter (fun e => e.1 != [lit "k", lit "mine"]), false) :=
  (follows_link 1 demoFs [lit "l"] [lit "k"] (lit "x") demo_wf demo_real.2.2 (by decide) (by decide +kernel) (by decide +kernel) (by decide +kernel)
    demo_real.2.1 (by decide +kernel) (plain_of (by decide +kernel))
    (by
      have : ∀ e ∈ demoFs, [lit "k"] <+: e.1 → (text ([lit "l"] ++ [lit "x"] ++ e.1.drop 1)).length ≤ 1023 := by decide +kernel
      intro r k hr
      exact this _ hr (List.prefix_append _ _))
    (by unfold Levels; decide +kernel)).trans (by decide +kernel)

/-- So the claim "nothing outside is changed" is not true of a directory with a link in it. -/
theorem outside_not_safe : ∃ (fs : Fs) (p q : Path), Wf fs ∧ Real fs p ∧ ¬ p <+: q ∧ kindOf fs q = some .file ∧
    ∃ r, delTree (fun _ => false) 3 fs (text p) = some r ∧ kindOf r.1 q = none :=
  ⟨demoFs, [lit "l"], [lit "k", lit "mine"], demo_wf, demo_real.2.2, by decide +kernel, by decide +kernel, _, link_witness, by decide +kernel⟩

/-- A directory with only names with a dot goes, another stays. -/
def dotFs : Fs := [([lit "d"], .dir), ([lit "d", lit ".a"], .file), ([lit "e"], .dir), ([lit "e", lit "a"], .file), ([lit "e", lit ".a"], .file)]

example : delDirectory (fun _ => false) 2 dotFs (lit "/d") = some (dotFs.drop 2, true) := by decide +kernel
example : delDirectory (fun _ => false) 2 dotFs (lit "/e") = some (dotFs, false) := by decide +kernel

example : Wf dotFs ∧ Real dotFs [lit "d"] ∧ Tame dotFs [lit "d"] ∧ Levels 2 dotFs [lit "d"] :=
  ⟨⟨by decide +kernel, by decide +kernel, (by decide +kernel : ∀ e ∈ dotFs, ∀ n ∈ e.1, n ≠ [] ∧ (47 : UInt8) ∉ n)⟩, real_of (by decide +kernel),
    ⟨plain_of (by decide +kernel), by decide +kernel⟩, by unfold Levels; decide +kernel⟩

/-- A directory with a path of 1023 bytes (four levels) and a file in it. -/
def longName : Name := List.replicate 255 97
def longDir : Path := [longName, longName, longName, List.replicate 254 97]
def longFs : Fs := [(longDir.take 1, .dir), (longDir.take 2, .dir), (longDir.take 3, .dir), (longDir, .dir), (longDir ++ [lit "f"], .file)]

example : (text longDir).length = 1023 ∧ isDir longFs (text longDir) = true ∧ browse longFs (text longDir) = [lit "f"] := by decide +kernel

end Verif.DelTree
