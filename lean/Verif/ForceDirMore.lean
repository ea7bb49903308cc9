import Verif.ForceDirProps

/-
Creating a directory creates exactly the missing directories on the way to it (C140).
-/
namespace Verif.ForceDir
open CStr DelTree

theorem whole_norm (cwd : Path) (b : Bytes) (h : b.length ≤ 1023) (hne : norm b ≠ []) : whole cwd (norm b) = whole cwd b := by
  unfold whole
  rw [norm_head b hne, parts_norm b h]

theorem force_empty (may : Path → Bool) (cwd : Path) (fs : Fs) (n : Nat) (b : Bytes) (h : norm b = []) : forceN may cwd n fs b = (fs, false) := by
  cases n with
  | zero => rfl
  | succ n =>
    unfold forceN
    rw [h]
    simp [stat, parent, create, mkdir]

theorem stat_dir {cwd : Path} {fs : Fs} {b : Bytes} {p : Path} (hne : b ≠ []) (hs : seek fs 40 (whole cwd b) = .found p) (hk : kindOf fs p = some .dir) :
    stat cwd fs b = .found p := by
  unfold stat
  rw [if_neg hne, hs]
  dsimp only
  rw [if_neg (fun q => q.2 hk)]

theorem isDirectory_of {cwd : Path} {fs : Fs} {b : Bytes} {p : Path} (hne : b ≠ []) (hs : seek fs 40 (whole cwd b) = .found p)
    (hk : kindOf fs p = some .dir) : isDirectory cwd fs b = true := by
  unfold isDirectory
  rw [stat_dir hne hs hk]
  simp [hk]

theorem stat_noent {cwd : Path} {fs : Fs} {b : Bytes} (hs : seek fs 40 (whole cwd b) = .noent) : stat cwd fs b = .noent := by
  unfold stat
  rw [hs]
  split <;> rfl

/-- Where a text begins: a relative one in the current directory, an absolute one below something which is there already. -/
def Begins (cwd pre : Path) (b : Bytes) : Prop := if b.head? = some 47 then pre ≠ [] else b ≠ [] ∧ cwd <+: pre

theorem creates_aux (may : Path → Bool) (cwd : Path) (fs : Fs) (hw : Wf fs) (m : Nat) (pre d : Path) (hm : m ≤ 40) (hl : Leads fs m [] pre d)
    (hd : kindOf fs d = some .dir) : ∀ (n : Nat) (path : Bytes) (rest : Path), path.length < n → path.length ≤ 1023 → whole cwd path = pre ++ rest →
    Begins cwd pre path → Missing fs d rest → (∀ r, r ≠ [] → r <+: rest → may (d ++ r) = true) →
    forceN may cwd n fs path = (fs ++ chain d rest, true) := by
  intro n
  induction n with
  | zero => intro path rest h; omega
  | succ n ih =>
    intro path rest hn hlen hwh hb hmiss hmay
    have hne : norm path ≠ [] := by
      intro q
      unfold Begins at hb
      by_cases ha : path.head? = some 47
      · rw [if_pos ha] at hb
        have h1 := parts_norm path hlen
        unfold whole at hwh
        rw [if_pos ha, ← h1, q] at hwh
        have : pre ++ rest = [] := hwh.symm
        exact hb (List.append_eq_nil_iff.1 this).1
      · rw [if_neg ha] at hb
        cases path with
        | nil => exact hb.1 rfl
        | cons c t =>
          have hc : c ≠ 47 := fun z => ha (by simp [z])
          have h1 := parts_norm (c :: t) hlen
          rw [q] at h1
          exact parts_cons c t hc h1.symm
    have hwn : whole cwd (norm path) = pre ++ rest := by rw [whole_norm cwd path hlen hne, hwh]
    have hhead := norm_head path hne
    unfold forceN
    rcases snoc_cases rest with rfl | ⟨r, x, rfl⟩
    · rw [List.append_nil] at hwn
      rw [stat_dir hne (by rw [hwn]; exact leads_found hl hd hm) hd]
      simp [hd, chain]
    · have hno : seek fs 40 (whole cwd (norm path)) = .noent := by
        rw [hwn, seek_eq, seekFrom_append hl hd 40 _ hm]
        cases r with
        | nil => simp only [seekFrom, List.nil_append, seekWith, hmiss x (by simp)]
        | cons y r => simp only [seekFrom, List.cons_append, seekWith, hmiss y (by simp)]
      rw [stat_noent hno]
      dsimp only
      have hgl : (whole cwd (norm path)).getLast? = some x := by rw [hwn, ← List.append_assoc]; simp
      have hdl : (whole cwd (norm path)).dropLast = pre ++ r := by rw [hwn, ← List.append_assoc, List.dropLast_concat]
      have hmx : may (d ++ r ++ [x]) = true := by
        rw [List.append_assoc]; exact hmay _ (by simp) (List.prefix_refl _)
      -- the last directory, with the ones above created
      have hlast : create may cwd (fs ++ chain d r) (norm path) = (fs ++ chain d (r ++ [x]), true) := by
        have f1 := after_found hw hm hl hd hmiss r [] [x] (by simp)
        have f2 := after_kind hw hd hmiss r [] [x] (by simp)
        rw [List.append_nil] at f1 f2
        have f3 : kindOf (fs ++ chain d r) (d ++ r ++ [x]) = none := by
          rw [List.append_assoc, kindOf_append_none _ (missing_all hw hmiss (r ++ [x]) [] (by simp) (by simp))]
          exact chain_none _ _ _ (by simp)
        have f4 : mkdir may cwd (fs ++ chain d r) (norm path) = (fs ++ chain d r ++ [(d ++ r ++ [x], .dir)], .ok) := by
          unfold mkdir
          rw [if_neg hne, hgl, hdl, f1]
          dsimp only
          rw [if_neg (by simp [f2]), if_neg (fun q => q f3), if_pos hmx]
        have f5 := after_found hw hm hl hd hmiss (r ++ [x]) [] [] (by simp)
        have f6 := after_kind hw hd hmiss (r ++ [x]) [] [] (by simp)
        rw [List.append_nil] at f5 f6
        rw [chain_snoc, ← List.append_assoc] at f5 f6
        unfold create
        rw [f4]
        dsimp only
        rw [if_neg (by simp), isDirectory_of hne (by rw [hwn]; exact f5) f6, chain_snoc, List.append_assoc]
      cases hp : parent (norm path) with
      | none =>
        dsimp only
        have h47 := parent_none hp
        have hpl := parts_plain _ h47 hne
        have ha : path.head? ≠ some 47 := by
          rw [← hhead]
          intro q
          exact h47 (List.mem_of_head? q)
        unfold Begins at hb
        rw [if_neg ha] at hb
        unfold whole at hwn
        rw [hhead, if_neg ha, hpl, ← List.append_assoc] at hwn
        have hc : cwd = pre ++ r := (List.append_inj_left' hwn (by simp))
        have : r = [] := by
          have h1 := hb.2.length_le
          have h2 := congrArg List.length hc
          rw [List.length_append] at h2
          exact List.length_eq_zero_iff.1 (by omega)
        subst this
        have := hlast
        simp only [chain, List.append_nil] at this
        exact this
      | some up =>
        dsimp only
        have hsh := parent_shorter hp
        have hnl := norm_length path
        rw [if_pos (by omega)]
        obtain ⟨c, hc, hc47⟩ := parent_some hp
        have hpt := parts_snoc up c hc47
        rw [← hc] at hpt
        -- the text above has the same beginning
        have hup : up ≠ [] → up.head? = path.head? := by
          intro hu
          rw [← hhead, hc]
          cases up with
          | nil => exact absurd rfl hu
          | cons _ _ => rfl
        have hune : up ≠ [] := by
          intro hu
          subst hu
          unfold Begins at hb
          have ha : path.head? = some 47 := by rw [← hhead, hc]; rfl
          rw [if_pos ha] at hb
          unfold whole at hwn
          rw [hhead, if_pos ha, hpt] at hwn
          have hpn : parts ([] : Bytes) = [] := rfl
          rw [hpn, List.nil_append] at hwn
          by_cases hcn : c = []
          · rw [if_pos hcn] at hwn
            exact hb (List.append_eq_nil_iff.1 hwn.symm).1
          · rw [if_neg hcn] at hwn
            have h1 := congrArg List.length hwn
            have h2 : pre.length ≠ 0 := fun z => hb (List.length_eq_zero_iff.1 z)
            simp at h1
            omega
        have hbu : Begins cwd pre up := by
          unfold Begins at hb ⊢
          rw [hup hune]
          by_cases ha : path.head? = some 47
          · rw [if_pos ha] at hb ⊢; exact hb
          · rw [if_neg ha] at hb ⊢; exact ⟨hune, hb.2⟩
        have hwu : whole cwd up ++ (if c = [] then [] else [c]) = pre ++ (r ++ [x]) := by
          rw [← hwn]
          unfold whole
          rw [hup hune, hhead, hpt]
          split <;> simp
        by_cases hcn : c = []
        · rw [if_pos hcn, List.append_nil] at hwu
          rw [ih up (r ++ [x]) (by omega) (by omega) hwu hbu hmiss hmay]
          dsimp only
          rw [if_pos rfl]
          have f1 := after_found hw hm hl hd hmiss r [x] [] (by simp)
          have f2 := after_kind hw hd hmiss r [x] [] (by simp)
          have f5 := after_found hw hm hl hd hmiss (r ++ [x]) [] [] (by simp)
          have f6 := after_kind hw hd hmiss (r ++ [x]) [] [] (by simp)
          rw [List.append_nil] at f5 f6
          have f4 : mkdir may cwd (fs ++ chain d (r ++ [x])) (norm path) = (fs ++ chain d (r ++ [x]), .exists) := by
            unfold mkdir
            rw [if_neg hne, hgl, hdl, f1]
            dsimp only
            rw [← List.append_assoc] at f6
            rw [if_neg (by simp [f2]), if_pos (show _ ≠ none from by rw [f6]; simp)]
          unfold create
          rw [f4]
          dsimp only
          rw [if_neg (by simp), isDirectory_of hne (by rw [hwn]; exact f5) f6]
        · rw [if_neg hcn, ← List.append_assoc] at hwu
          have hwu' : whole cwd up = pre ++ r := List.append_inj_left' hwu (by simp)
          have hmr : Missing fs d r := by
            intro y hy
            refine hmiss y ?_
            cases r with
            | nil => simp at hy
            | cons _ _ => exact hy
          rw [ih up r (by omega) (by omega) hwu' hbu hmr (fun q h1 h2 => hmay q h1 (h2.trans (List.prefix_append _ _)))]
          dsimp only
          rw [if_pos rfl]
          exact hlast

/-- C140: If the way to a directory is there up to a directory `d` and the rest is missing, exactly the rest is created, where this is allowed.
For a path from the root, more than the root must be there already. -/
theorem creates (may : Path → Bool) (cwd : Path) (fs : Fs) (path : Bytes) (m : Nat) (pre rest d : Path) (hw : Wf fs) (hlen : path.length ≤ 1023)
    (hpath : whole cwd path = pre ++ rest) (hb : Begins cwd pre path) (hm : m ≤ 40) (hl : Leads fs m [] pre d) (hd : kindOf fs d = some .dir)
    (hmiss : Missing fs d rest) (hmay : ∀ r, r ≠ [] → r <+: rest → may (d ++ r) = true) :
    force may cwd fs path = (fs ++ chain d rest, true) :=
  creates_aux may cwd fs hw m pre d hm hl hd _ path rest (by omega) hlen hpath hb hmiss hmay

/-- C140: A file in the way: nothing is created. -/
theorem file_in_way (may : Path → Bool) (cwd : Path) (fs : Fs) (path : Bytes) (m : Nat) (pre rest f : Path) (hlen : path.length ≤ 1023)
    (hpath : whole cwd path = pre ++ rest) (hm : m ≤ 40) (hl : Leads fs m [] pre f) (hf : kindOf fs f = some .file) :
    force may cwd fs path = (fs, false) := by
  by_cases hne : norm path = []
  · exact force_empty may cwd fs _ path hne
  · have hp : pre ≠ [] := by
      intro q
      subst q
      cases hl
      simp [kindOf] at hf
    have hs := seekFrom_file hl hp hf 40 rest hm
    rw [← seek_eq] at hs
    unfold force forceN
    have hst : stat cwd fs (norm path) = .notdir ∨ stat cwd fs (norm path) = .found f := by
      unfold stat
      rw [if_neg hne, whole_norm cwd path hlen hne, hpath, hs]
      by_cases hr : rest = []
      · rw [if_pos hr]
        dsimp only
        split
        · exact .inl rfl
        · exact .inr rfl
      · rw [if_neg hr]; exact .inl rfl
    rcases hst with q | q <;> rw [q]
    simp [hf]

theorem create_true {may : Path → Bool} {cwd : Path} {fs fs' : Fs} {b : Bytes} (h : create may cwd fs b = (fs', true)) :
    isDirectory cwd fs' b = true := by
  unfold create at h
  dsimp only at h
  split at h
  · simp at h
  · obtain ⟨h1, h2⟩ := Prod.mk.injEq _ _ _ _ ▸ h
    rw [← h1]; exact h2

theorem force_true {may : Path → Bool} {cwd : Path} : ∀ {n : Nat} {fs fs' : Fs} {b : Bytes}, forceN may cwd n fs b = (fs', true) →
    isDirectory cwd fs' (norm b) = true := by
  intro n fs fs' b h
  cases n with
  | zero => simp [forceN] at h
  | succ n =>
    unfold forceN at h
    cases hs : stat cwd fs (norm b) with
    | found p =>
      rw [hs] at h
      simp only [Prod.mk.injEq] at h
      unfold isDirectory
      rw [← h.1, hs]
      exact h.2
    | notdir => rw [hs] at h; simp at h
    | loop => rw [hs] at h; simp at h
    | noent =>
      rw [hs] at h
      dsimp only at h
      cases hp : parent (norm b) with
      | none => rw [hp] at h; exact create_true h
      | some up =>
        rw [hp] at h
        dsimp only at h
        split at h
        · split at h
          · exact create_true h
          · simp at h
        · exact create_true h

/-- C140: If it succeeds, the path leads to a directory. A path of more than 1023 bytes is taken for its first 1023 bytes. -/
theorem success (may : Path → Bool) (cwd : Path) (fs fs' : Fs) (path : Bytes) (h : force may cwd fs path = (fs', true)) :
    ∃ m q, m ≤ 40 ∧ Leads fs' m [] (whole cwd (path.take 1023)) q ∧ kindOf fs' q = some .dir := by
  have h1 := force_true h
  have hne : norm path ≠ [] := by
    intro q
    rw [force, force_empty may cwd fs _ path q] at h
    simp at h
  have hn : norm (path.take 1023) = norm path := by unfold norm; rw [List.take_take]; rfl
  have hw := whole_norm cwd (path.take 1023) (by rw [List.length_take]; omega) (by rw [hn]; exact hne)
  rw [hn] at hw
  unfold isDirectory stat at h1
  rw [if_neg hne, hw] at h1
  cases hs : seek fs' 40 (whole cwd (path.take 1023)) with
  | found p =>
    rw [hs] at h1
    dsimp only at h1
    split at h1
    · rename_i q hq
      split at hq
      · simp at hq
      · simp only [Look.found.injEq] at hq
        rw [seek_eq] at hs
        obtain ⟨m, hm, hl⟩ := seekFrom_found _ _ _ _ hs
        refine ⟨m, p, hm, hl, ?_⟩
        rw [hq]
        exact eq_of_beq h1
    · simp at h1
  | noent => rw [hs] at h1; simp at h1
  | notdir => rw [hs] at h1; simp at h1
  | loop => rw [hs] at h1; simp at h1

/-- C140: What is there already is found, and nothing is created, also if the same directory is created twice. -/
theorem again (may : Path → Bool) (cwd : Path) (fs fs' : Fs) (path : Bytes) (h : force may cwd fs path = (fs', true)) :
    force may cwd fs' path = (fs', true) := by
  have h1 := force_true h
  unfold isDirectory at h1
  unfold force forceN
  cases hs : stat cwd fs' (norm path) with
  | found p => rw [hs] at h1; dsimp only at h1 ⊢; rw [h1]
  | noent => rw [hs] at h1; simp at h1
  | notdir => rw [hs] at h1; simp at h1
  | loop => rw [hs] at h1; simp at h1

/-- Only directories on the way are added, in places where nothing was and where it is allowed. -/
def Adds (may : Path → Bool) (way : Path) (fs fs' : Fs) : Prop :=
  ∃ ds : List Path, fs' = fs ++ ds.map (fun d => (d, Kind.dir)) ∧
    ∀ d ∈ ds, kindOf fs d = none ∧ may d = true ∧ kindOf fs' d.dropLast = some .dir ∧ ∃ m p, m ≤ 40 ∧ p <+: way ∧ Leads fs' m [] p d

theorem adds_refl (may : Path → Bool) (way : Path) (fs : Fs) : Adds may way fs fs := ⟨[], by simp, by simp⟩

theorem adds_trans {may : Path → Bool} {w1 w2 : Path} {a b c : Fs} (h1 : Adds may w1 a b) (h2 : Adds may w2 b c) (hw : w1 <+: w2) : Adds may w2 a c := by
  obtain ⟨d1, e1, f1⟩ := h1
  obtain ⟨d2, e2, f2⟩ := h2
  refine ⟨d1 ++ d2, by rw [e2, e1, List.map_append, List.append_assoc], ?_⟩
  intro d hd
  rcases List.mem_append.1 hd with q | q
  · obtain ⟨g1, g2, g3, m, p, g4, g5, g6⟩ := f1 d q
    refine ⟨g1, g2, ?_, m, p, g4, g5.trans hw, ?_⟩
    · rw [e2]; exact kindOf_append _ g3
    · rw [e2]; exact leads_append _ g6
  · obtain ⟨g1, g2, g3, g4⟩ := f2 d q
    refine ⟨?_, g2, g3, g4⟩
    cases hk : kindOf a d with
    | none => rfl
    | some k => rw [e1, kindOf_append _ hk] at g1; simp at g1

theorem mkdir_adds (may : Path → Bool) (cwd : Path) (fs : Fs) (b : Bytes) : Adds may (whole cwd b) fs (mkdir may cwd fs b).1 := by
  unfold mkdir
  by_cases hb : b = []
  · rw [if_pos hb]; exact adds_refl _ _ _
  · rw [if_neg hb]
    cases hg : (whole cwd b).getLast? with
    | none => exact adds_refl _ _ _
    | some x =>
      dsimp only
      cases hs : seek fs 40 (whole cwd b).dropLast with
      | noent => exact adds_refl _ _ _
      | notdir => exact adds_refl _ _ _
      | loop => exact adds_refl _ _ _
      | found d =>
        dsimp only
        by_cases h1 : kindOf fs d = some .dir
        · rw [if_neg (fun q => q h1)]
          by_cases h2 : kindOf fs (d ++ [x]) = none
          · rw [if_neg (fun q => q h2)]
            by_cases h3 : may (d ++ [x]) = true
            · rw [if_pos h3]
              refine ⟨[d ++ [x]], rfl, ?_⟩
              intro y hy
              rw [List.mem_singleton] at hy
              subst hy
              rw [seek_eq] at hs
              obtain ⟨m, hm, hl⟩ := seekFrom_found _ _ _ _ hs
              have hk : kindOf (fs ++ [(d ++ [x], Kind.dir)]) (d ++ [x]) = some .dir := by
                rw [kindOf_append_none _ h2]
                simp [kindOf]
              refine ⟨h2, h3, ?_, m, whole cwd b, hm, List.prefix_refl _, ?_⟩
              · rw [List.dropLast_concat]; exact kindOf_append _ h1
              · have hsp : whole cwd b = (whole cwd b).dropLast ++ [x] := by
                  rcases snoc_cases (whole cwd b) with q | ⟨r, z, q⟩
                  · rw [q] at hg; simp at hg
                  · rw [q] at hg ⊢
                    have : z = x := by simpa using hg
                    rw [List.dropLast_concat, this]
                rw [hsp]
                exact leads_trans (k := 0) (leads_append _ hl) (kindOf_append _ h1) (.down hk (.here _))
            · rw [if_neg h3]; exact adds_refl _ _ _
          · rw [if_pos h2]; exact adds_refl _ _ _
        · rw [if_pos h1]; exact adds_refl _ _ _

theorem create_adds (may : Path → Bool) (cwd : Path) (fs : Fs) (b : Bytes) : Adds may (whole cwd b) fs (create may cwd fs b).1 := by
  unfold create
  dsimp only
  split <;> exact mkdir_adds may cwd fs b

theorem whole_up {cwd : Path} {b up : Bytes} (h : parent b = some up) (hne : up ≠ []) : whole cwd up <+: whole cwd b := by
  obtain ⟨c, rfl, hc⟩ := parent_some h
  unfold whole
  have : (up ++ 47 :: c).head? = up.head? := by cases up with | nil => exact absurd rfl hne | cons _ _ => rfl
  rw [this, parts_snoc up c hc]
  split
  · exact List.prefix_append _ _
  · rw [← List.append_assoc]; exact List.prefix_append _ _

theorem whole_norm_prefix (cwd : Path) (b : Bytes) (hne : norm b ≠ []) (hlen : b.length ≤ 1023) : whole cwd (norm b) <+: whole cwd b := by
  rw [whole_norm cwd b hlen hne]
  exact List.prefix_refl _

/-- C140: Whatever happens, nothing is deleted or replaced, and only directories on the way to the wanted one are added. -/
theorem only_adds (may : Path → Bool) (cwd : Path) (fs : Fs) (path : Bytes) : Adds may (whole cwd (path.take 1023)) fs (force may cwd fs path).1 := by
  have key : ∀ (n : Nat) (fs : Fs) (path : Bytes), Adds may (whole cwd (path.take 1023)) fs (forceN may cwd n fs path).1 := by
    intro n
    induction n with
    | zero => intro fs path; exact adds_refl _ _ _
    | succ n ih =>
      intro fs path
      by_cases hne : norm path = []
      · rw [force_empty may cwd fs _ path hne]; exact adds_refl _ _ _
      have hn : norm (path.take 1023) = norm path := by unfold norm; rw [List.take_take]; rfl
      have hw := whole_norm cwd (path.take 1023) (by rw [List.length_take]; omega) (by rw [hn]; exact hne)
      rw [hn] at hw
      rw [← hw]
      unfold forceN
      cases hs : stat cwd fs (norm path) with
      | found p => exact adds_refl _ _ _
      | notdir => exact adds_refl _ _ _
      | loop => exact adds_refl _ _ _
      | noent =>
        dsimp only
        cases hp : parent (norm path) with
        | none => exact create_adds _ _ _ _
        | some up =>
          dsimp only
          by_cases hu : up = []
          · subst hu
            split
            · rw [force_empty may cwd fs n [] rfl]
              simp only [Bool.false_eq_true, if_false]
              exact adds_refl _ _ _
            · exact create_adds _ _ _ _
          have hsh := parent_shorter hp
          have hl : (norm path).length ≤ 1023 := by
            unfold norm; split <;> simp <;> omega
          have h1 := ih fs up
          rw [List.take_of_length_le (by omega)] at h1
          have hpre := whole_up (cwd := cwd) hp hu
          split
          · split
            · exact adds_trans h1 (create_adds _ _ _ _) hpre
            · exact adds_trans h1 (adds_refl _ _ _) hpre
          · exact create_adds _ _ _ _
  exact key _ fs path

/-- C140, refutation: a directory directly below the root is never created, and so nothing below it. -/
theorem below_root (may : Path → Bool) (cwd : Path) (fs : Fs) (b : Bytes) (n : Name) (rest : Path) (hlen : b.length < 1023)
    (h1 : b.head? ≠ some 47) (hp : parts b = n :: rest) (hk : kindOf fs [n] = none) : force may cwd fs (47 :: b) = (fs, false) := by
  have key : ∀ (f : Nat) (b : Bytes) (rest : Path), b.length < 1023 → b.head? ≠ some 47 → parts b = n :: rest →
      forceN may cwd f fs (47 :: b) = (fs, false) := by
    intro f
    induction f with
    | zero => intro b rest _ _ _; rfl
    | succ f ih =>
      intro b rest hlen h1 hp
      by_cases hne : norm (47 :: b) = []
      · exact force_empty may cwd fs _ _ hne
      have hw := whole_norm cwd (47 :: b) (by simp; omega) hne
      have hw2 : whole cwd (47 :: b) = n :: rest := by
        unfold whole
        rw [if_pos (by rfl), parts_slash, hp]
      have hst : stat cwd fs (norm (47 :: b)) = .noent := by
        apply stat_noent
        rw [hw, hw2, seek_eq]
        simp only [seekFrom, seekWith, List.nil_append, hk]
      unfold forceN
      rw [hst]
      dsimp only
      have hh := norm_head (47 :: b) hne
      cases hpar : parent (norm (47 :: b)) with
      | none => exact absurd (List.mem_of_head? (by rw [hh]; rfl)) (parent_none hpar)
      | some up =>
        dsimp only
        have hsh := parent_shorter hpar
        have hnl := norm_length (47 :: b)
        rw [if_pos (by omega)]
        obtain ⟨c, hc, hc47⟩ := parent_some hpar
        have hup : forceN may cwd f fs up = (fs, false) := by
          cases up with
          | nil => exact force_empty may cwd fs _ _ rfl
          | cons x u =>
            have hx : x = 47 := by rw [hc] at hh; simpa using hh
            subst hx
            -- the text behind the slash begins as before
            have hnb : ∃ e, b = u ++ 47 :: c ++ e := by
              have hl : (47 :: b).take 1023 = 47 :: b := List.take_of_length_le (by simp; omega)
              unfold norm at hc
              rw [hl] at hc
              split at hc
              · rename_i hl2
                rcases snoc_cases (47 :: b) with q | ⟨r, z, q⟩
                · simp at q
                · rw [q] at hl2 hc
                  have hz : z = 47 := by simpa using hl2
                  rw [List.dropLast_concat] at hc
                  rw [hc, hz] at q
                  simp only [List.cons_append, List.cons.injEq, true_and] at q
                  exact ⟨[47], q⟩
              · simp only [List.cons_append, List.cons.injEq, true_and] at hc
                exact ⟨[], by rw [List.append_nil]; exact hc⟩
            obtain ⟨e, he⟩ := hnb
            have hu1 : u ≠ [] := by
              intro q; subst q
              rw [he] at h1
              simp at h1
            have hu2 : u.head? ≠ some 47 := by
              rw [he] at h1
              cases u with
              | nil => exact absurd rfl hu1
              | cons y _ => simpa using h1
            have hpn : parts (norm (47 :: b)) = n :: rest := by
              rw [parts_norm _ (by simp; omega), parts_slash, hp]
            rw [hc, parts_snoc _ _ hc47, parts_slash] at hpn
            have hpu : ∃ r, parts u = n :: r := by
              cases hq : parts u with
              | nil =>
                cases u with
                | nil => exact absurd rfl hu1
                | cons y w => exact absurd hq (parts_cons y w (fun z => hu2 (by simp [z])))
              | cons z w =>
                rw [hq] at hpn
                simp only [List.cons_append, List.cons.injEq] at hpn
                exact ⟨w, by rw [hpn.1]⟩
            obtain ⟨r, hr⟩ := hpu
            have hlu : u.length < 1023 := by
              have := congrArg List.length he
              simp at this
              omega
            exact ih u r hlu hu2 hr
        rw [hup]
        simp
  exact key _ b rest hlen h1 hp

/-- C140, refutation: the root itself is taken for a directory which can't be created. -/
theorem root_fails (may : Path → Bool) (cwd : Path) (fs : Fs) : force may cwd fs [47] = (fs, false) :=
  force_empty may cwd fs _ _ rfl

/-- C140: a longer path is cut. -/
theorem cut (may : Path → Bool) (cwd : Path) (fs : Fs) (path : Bytes) : force may cwd fs path = force may cwd fs (path.take 1023) := by
  have hn : norm (path.take 1023) = norm path := by unfold norm; rw [List.take_take]; rfl
  have hd : force may cwd fs (path.take 1023) = forceN may cwd (path.length + 1) fs (path.take 1023) :=
    force_depth may cwd _ _ fs _ (by omega) (by rw [List.length_take]; omega)
  rw [hd]
  unfold force forceN
  rw [hn]
  cases stat cwd fs (norm path) with
  | found p => rfl
  | notdir => rfl
  | loop => rfl
  | noent =>
    dsimp only
    cases hp : parent (norm path) with
    | none => rfl
    | some up =>
      have h1 := parent_shorter hp
      have h2 : (norm path).length ≤ (path.take 1023).length := by unfold norm; split <;> simp <;> omega
      have h3 := norm_length path
      dsimp only
      rw [if_pos (show up.length ≠ path.length by omega), if_pos (show up.length ≠ (path.take 1023).length by omega)]

/-! ### Examples -/

def demoFs : Fs := [([lit "srv"], .dir), ([lit "srv", lit "a"], .dir), ([lit "srv", lit "f"], .file), ([lit "home"], .link [lit "srv", lit "a"])]

theorem demo_wf : Wf demoFs := by
  refine ⟨by decide +kernel, by decide +kernel, ?_⟩
  intro e he n hn
  have : ∀ e ∈ demoFs, ∀ n ∈ e.1, n ≠ [] ∧ ¬ (47 : UInt8) ∈ n := by decide +kernel
  exact this e he n hn

-- through a link, with doubled slashes
example : force (fun _ => true) [] demoFs (lit "/home/x//y/") =
    (demoFs ++ [([lit "srv", lit "a", lit "x"], .dir), ([lit "srv", lit "a", lit "x", lit "y"], .dir)], true) := by decide +kernel
example : whole [] (lit "/home/x//y/") = [lit "home"] ++ [lit "x", lit "y"] ∧ Begins [] [lit "home"] (lit "/home/x//y/") ∧
    Leads demoFs 1 [] [lit "home"] [lit "srv", lit "a"] ∧ Missing demoFs [lit "srv", lit "a"] [lit "x", lit "y"] := by
  refine ⟨by decide +kernel, by unfold Begins; decide +kernel, .link (t := [lit "srv", lit "a"]) (by decide +kernel)
    (.down (by decide +kernel) (.down (by decide +kernel) (.here _))), ?_⟩
  intro n hn
  simp only [List.head?_cons, Option.some.injEq] at hn
  subst hn
  decide +kernel
-- relative
example : force (fun _ => true) [lit "srv"] demoFs (lit "b/c") =
    (demoFs ++ [([lit "srv", lit "b"], .dir), ([lit "srv", lit "b", lit "c"], .dir)], true) := by decide +kernel
-- a file in the way, a missing right
example : force (fun _ => true) [] demoFs (lit "/srv/f/x") = (demoFs, false) := by decide +kernel
example : force (fun p => p.length < 3) [] demoFs (lit "/srv/b/c") = (demoFs ++ [([lit "srv", lit "b"], .dir)], false) := by decide +kernel
-- below the root
example : force (fun _ => true) [] demoFs (lit "/downloads/dst") = (demoFs, false) ∧ parts (lit "downloads/dst") = [lit "downloads", lit "dst"] := by
  decide +kernel

end Verif.ForceDir
