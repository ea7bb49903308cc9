import Verif.CmdIdsProps
/-
Sending files, controlling the server and where switches may stand (C132).
-/
namespace Verif.CmdArgs
open CStr

/-! ### Sending files -/

/-- A file is no word of -A. -/
def FileWord (f : Bytes) : Prop := Plain f ∧ ∀ s ∈ addKeywords, isW f s = false

theorem append_end {f : Bytes} (hf : ∀ s ∈ addKeywords, isW f s = false) (c : Cmd) (more : List Bytes) :
    append c (f :: more) = some (c, f :: more) := by
  have h := fun s hs => hf s hs
  simp only [addKeywords, List.mem_cons, List.not_mem_nil, or_false, forall_eq_or_imp, forall_eq] at h
  obtain ⟨h1, h2, h3, h4, h5, h6, h7, h8, h9, h10⟩ := h
  rw [append.eq_def]
  dsimp only
  rw [h1, h2, h3, h4, h5, h6, h7, h8, h9, h10]
  rfl

theorem decInt_int {i : Int} (h1 : -2147483648 ≤ i) (h2 : i ≤ 2147483647) : OptStore.intOf (decInt i) = i := by
  have h3 := RpcParam.intOf_decInt i h1 h2 [] (by simp)
  rwa [List.append_nil] at h3

theorem append_opt {o : AddOpt} (ho : o.Ok) (c : Cmd) (ws : List Bytes) :
    append c (o.words ++ ws) = append (o.effect c) ws := by
  cases o with
  | top =>
    show append c (lit "T" :: ws) = _
    rw [append.eq_def]
    rfl
  | paused =>
    show append c (lit "P" :: ws) = _
    rw [append.eq_def]
    rfl
  | priority i =>
    show append c (lit "I" :: decInt i :: ws) = _
    rw [append.eq_def]
    show append { c with priority := OptStore.intOf (decInt i) } ws = _
    rw [decInt_int ho.1 ho.2]
    rfl
  | category b => rfl
  | name b => rfl
  | dupeKey b => rfl
  | dupeScore i =>
    show append c (lit "DS" :: decInt i :: ws) = _
    rw [append.eq_def]
    show append { c with dupeScore := OptStore.intOf (decInt i) } ws = _
    rw [decInt_int ho.1 ho.2]
    rfl
  | dupeMode m => cases m <;> rfl

theorem append_opts : ∀ (l : List AddOpt) (_ : ∀ o ∈ l, o.Ok) (c : Cmd) (ws : List Bytes),
    append c (addWords l ++ ws) = append (adding c l) ws
  | [], _, c, ws => rfl
  | o :: l, h, c, ws => by
    rw [addWords, List.append_assoc, append_opt (h o (by simp)), append_opts l (fun x hx => h x (List.mem_cons_of_mem _ hx))]
    rfl

theorem adding_eq (l : List AddOpt) : ∀ (c : Cmd), (adding c l).op = c.op ∧ (adding c l).server = c.server ∧
    (adding c l).client = c.client ∧ (adding c l).printOptions = c.printOptions := by
  induction l with
  | nil => intro c; exact ⟨rfl, rfl, rfl, rfl⟩
  | cons o l ih =>
    intro c
    obtain ⟨h1, h2, h3, h4⟩ := ih (o.effect c)
    rw [adding, h1, h2, h3, h4]
    cases o <;> exact ⟨rfl, rfl, rfl, rfl⟩

/-- **-A sends the file or address behind its options, with all of them**; words behind the file are ignored. -/
theorem append_command (cwd : Bytes) (setup : List Setup) (opts : List AddOpt) (h : ∀ o ∈ opts, o.Ok) {f : Bytes}
    (hf : FileWord f) (more : List Bytes) (hm : ∀ x ∈ more, Plain x) :
    parse cwd (setupWords setup ++ lit "-A" :: (addWords opts ++ f :: more)) =
      .run { adding { settings {} setup with op := .download } opts with
        lastArg := some f, argFile := some (fileArg cwd f) } := by
  obtain ⟨n, cf, o, hs⟩ := settings_eq setup {}
  obtain ⟨e1, e2, e3, e4⟩ := adding_eq opts { settings {} setup with op := .download }
  rw [show lit "-A" = [45, 65] from by decide +kernel]
  rw [parse_go (switch_short (by decide +kernel) (by decide +kernel) _)
    (by rw [apply_append, append_opts opts h, append_end hf.2]; rfl)
    (show [45, 65] :: (addWords opts ++ f :: more) = ([45, 65] :: addWords opts) ++ (f :: more) from rfl)
    (fun x hx => by
      rcases List.mem_cons.1 hx with q | q
      · rw [q]; exact hf.1
      · exact hm x q)
    (by rw [e4, hs])]
  have hfin : finish (adding { settings {} setup with op := .download } opts) =
      adding { settings {} setup with op := .download } opts := by
    unfold finish
    rw [if_neg (by rw [e1]; simp)]
  rw [hfin]
  unfold fileArgs
  dsimp only
  rw [if_neg (by rw [e1]; simp), if_neg (by rw [e1, e2, e3, hs]; exact (by decide : ¬ (false || false || !takesArg .download) = true))]

example : parse (lit "/home") [lit "-A", lit "t", lit "C", lit "Movies", lit "I", lit "-50", lit "x.nzb"] =
    .run { op := .download, top := true, category := some (lit "Movies"), priority := -50, lastArg := some (lit "x.nzb"),
           argFile := some (lit "/home/x.nzb") } := by decide +kernel
example : FileWord (lit "x.nzb") := ⟨by decide +kernel, by decide +kernel⟩

/-- **-A without a file is refused.** -/
theorem append_needs_file (cwd : Bytes) (setup : List Setup) (opts : List AddOpt) (h : ∀ o ∈ opts, o.Ok) :
    parse cwd (setupWords setup ++ lit "-A" :: addWords opts) = .error := by
  obtain ⟨n, cf, o, hs⟩ := settings_eq setup {}
  obtain ⟨e1, e2, e3, e4⟩ := adding_eq opts { settings {} setup with op := .download }
  rw [show lit "-A" = [45, 65] from by decide +kernel]
  rw [parse_go (c := adding { settings {} setup with op := .download } opts) (ops := []) (switch_short (by decide +kernel) (by decide +kernel) _)
    (by
      have := append_opts opts h { settings {} setup with op := .download } []
      rw [List.append_nil] at this
      rw [apply_append, this]; rfl)
    (show _ = ([45, 65] :: addWords opts) ++ [] from by simp) (by simp) (by rw [e4, hs])]
  have hfin : finish (adding { settings {} setup with op := .download } opts) =
      adding { settings {} setup with op := .download } opts := by
    unfold finish
    rw [if_neg (by rw [e1]; simp)]
  rw [hfin]
  unfold fileArgs
  dsimp only
  rw [if_pos (by rw [e1, e2, e3, hs]; exact (by decide : (!false && !false && takesArg .download) = true))]

/-- **Without a command the file is downloaded by this program itself.** -/
theorem standalone (cwd : Bytes) (setup : List Setup) {f : Bytes} (hf : Plain f) (more : List Bytes)
    (hm : ∀ x ∈ more, Plain x) :
    parse cwd (setupWords setup ++ f :: more) =
      .run { settings {} setup with lastArg := some f, argFile := some (fileArg cwd f) } := by
  obtain ⟨n, cf, o, hs⟩ := settings_eq setup {}
  unfold parse
  rw [if_neg (by simp), List.length_append, loop_setup setup, loop_plain]
  · dsimp only
    rw [if_neg (by rw [hs]; exact Bool.false_ne_true)]
    rw [Nat.zero_add, List.drop_left]
    rw [hs]
    rfl
  · intro x hx
    rcases List.mem_cons.1 hx with q | q
    · rw [q]; exact hf
    · exact hm x q

/-- **Addresses and full paths are sent as they are, other names belong to the working directory.** -/
theorem file_argument (cwd f : Bytes) :
    ((∃ l, f = 47 :: l) ∨ Rpc.eqNoCase (f.take 7) (lit "http://") = true ∨ Rpc.eqNoCase (f.take 8) (lit "https://") = true →
      fileArg cwd f = f) ∧
    ((∀ l, f ≠ 47 :: l) → Rpc.eqNoCase (f.take 6) (lit "http:/") = false → Rpc.eqNoCase (f.take 7) (lit "https:/") = false →
      fileArg cwd f = cwd ++ lit "/" ++ f) := by
  have cut : ∀ (k : Nat) (s : Bytes) , Rpc.eqNoCase (f.take (k + 1)) s = true → Rpc.eqNoCase (f.take k) (s.take k) = true := by
    intro k s h
    unfold Rpc.eqNoCase at h ⊢
    rw [beq_iff_eq] at h ⊢
    have h2 := congrArg (List.take k) h
    rw [← List.map_take, ← List.map_take, List.take_take, Nat.min_eq_left (by omega)] at h2
    exact h2
  constructor
  · intro h
    unfold fileArg
    rw [if_pos]
    rcases h with ⟨l, rfl⟩ | h | h
    · simp
    · have := cut 6 _ h
      rw [show (lit "http://").take 6 = lit "http:/" by decide +kernel] at this
      rw [this]; simp
    · have := cut 7 _ h
      rw [show (lit "https://").take 7 = lit "https:/" by decide +kernel] at this
      rw [this]; simp
  · intro h1 h2 h3
    unfold fileArg
    rw [if_neg, show lit "/" = [47] by decide +kernel]
    · simp
    · rw [h2, h3]
      cases f with
      | nil => decide
      | cons b l =>
        have : b ≠ 47 := fun q => h1 l (by rw [q])
        simp [this]

example : fileArg (lit "/home") (lit "HTTP://x/y") = lit "HTTP://x/y" ∧ fileArg (lit "/home") (lit "a.nzb") = lit "/home/a.nzb" := by
  decide +kernel

/-! ### Controlling the server -/

/-- **The commands for pausing, lists and scanning** with their word, upper and lower case alike. -/
theorem control_commands (cwd : Bytes) (setup : List Setup) {b : UInt8} {u : String} {op : Op} {w : Bytes}
    (hw : isW w u = true) (hm : (b, u, op) ∈ control) :
    parse cwd (setupWords setup ++ [[45, b], w]) = .run { settings {} setup with op := op } := by
  obtain ⟨n, cf, o, hs⟩ := settings_eq setup {}
  have hd : dash w = false := by
    have hmap : w.map WildMask.lower = (lit u).map WildMask.lower := by
      unfold isW Rpc.eqNoCase at hw
      exact beq_iff_eq.1 hw
    have hu : ((lit u).map WildMask.lower).head? ≠ some 45 := by
      simp only [control, List.mem_cons, List.not_mem_nil, or_false, Prod.mk.injEq] at hm
      rcases hm with ⟨_, rfl, _⟩ | ⟨_, rfl, _⟩ | ⟨_, rfl, _⟩ | ⟨_, rfl, _⟩ | ⟨_, rfl, _⟩ | ⟨_, rfl, _⟩ | ⟨_, rfl, _⟩ |
        ⟨_, rfl, _⟩ | ⟨_, rfl, _⟩ | ⟨_, rfl, _⟩ | ⟨_, rfl, _⟩ | ⟨_, rfl, _⟩ | ⟨_, rfl, _⟩ <;> decide +kernel
    rw [← hmap] at hu
    unfold dash
    cases w with
    | nil => decide
    | cons x l =>
      simp only [List.head?_cons, beq_eq_false_iff_ne, ne_eq, Option.some.injEq]
      intro q
      subst q
      exact hu (by simp; decide)
  have ha : apply (settings {} setup) b none [w] = .go { settings {} setup with op := op } [] := by
    rw [hs]
    simp only [control, List.mem_cons, List.not_mem_nil, or_false, Prod.mk.injEq] at hm
    rcases hm with ⟨rfl, rfl, rfl⟩ | ⟨rfl, rfl, rfl⟩ | ⟨rfl, rfl, rfl⟩ | ⟨rfl, rfl, rfl⟩ | ⟨rfl, rfl, rfl⟩ | ⟨rfl, rfl, rfl⟩ |
      ⟨rfl, rfl, rfl⟩ | ⟨rfl, rfl, rfl⟩ | ⟨rfl, rfl, rfl⟩ | ⟨rfl, rfl, rfl⟩ | ⟨rfl, rfl, rfl⟩ | ⟨rfl, rfl, rfl⟩ |
      ⟨rfl, rfl, rfl⟩ <;>
      (simp only [apply, pause, list, scanDir, hd, isW_of hw]; rfl)
  have hb : plain.contains b = true ∧ withValue.contains b = false := by
    simp only [control, List.mem_cons, List.not_mem_nil, or_false, Prod.mk.injEq] at hm
    rcases hm with ⟨rfl, _⟩ | ⟨rfl, _⟩ | ⟨rfl, _⟩ | ⟨rfl, _⟩ | ⟨rfl, _⟩ | ⟨rfl, _⟩ | ⟨rfl, _⟩ | ⟨rfl, _⟩ | ⟨rfl, _⟩ | ⟨rfl, _⟩ |
      ⟨rfl, _⟩ | ⟨rfl, _⟩ | ⟨rfl, _⟩ <;> decide +kernel
  rw [parse_go (switch_short hb.1 hb.2 _) ha (show _ = [[45, b], w] ++ [] from rfl) (by simp) (by rw [hs])]
  rw [hs]
  simp only [control, List.mem_cons, List.not_mem_nil, or_false, Prod.mk.injEq] at hm
  rcases hm with ⟨rfl, rfl, rfl⟩ | ⟨rfl, rfl, rfl⟩ | ⟨rfl, rfl, rfl⟩ | ⟨rfl, rfl, rfl⟩ | ⟨rfl, rfl, rfl⟩ | ⟨rfl, rfl, rfl⟩ |
    ⟨rfl, rfl, rfl⟩ | ⟨rfl, rfl, rfl⟩ | ⟨rfl, rfl, rfl⟩ | ⟨rfl, rfl, rfl⟩ | ⟨rfl, rfl, rfl⟩ | ⟨rfl, rfl, rfl⟩ |
    ⟨rfl, rfl, rfl⟩ <;> rfl

example : parse [] [lit "-P", lit "o"] = .run { op := .postPause } := by decide +kernel

/-- **Without a word**: pause and resume the download, list the files, scan without waiting; quit, reload and
version. -/
theorem control_defaults (cwd : Bytes) (setup : List Setup) {b : UInt8} {op : Op} (hm : (b, op) ∈ controlDefault) :
    parse cwd (setupWords setup ++ [[45, b]]) = .run { settings {} setup with op := op } := by
  obtain ⟨n, cf, o, hs⟩ := settings_eq setup {}
  simp only [controlDefault, List.mem_cons, List.not_mem_nil, or_false, Prod.mk.injEq] at hm
  have hb : plain.contains b = true ∧ withValue.contains b = false := by
    rcases hm with ⟨rfl, _⟩ | ⟨rfl, _⟩ | ⟨rfl, _⟩ | ⟨rfl, _⟩ | ⟨rfl, _⟩ | ⟨rfl, _⟩ | ⟨rfl, _⟩ <;> decide +kernel
  have ha : apply (settings {} setup) b none [] = .go { settings {} setup with op := op } [] := by
    rw [hs]
    rcases hm with ⟨rfl, rfl⟩ | ⟨rfl, rfl⟩ | ⟨rfl, rfl⟩ | ⟨rfl, rfl⟩ | ⟨rfl, rfl⟩ | ⟨rfl, rfl⟩ | ⟨rfl, rfl⟩ <;> rfl
  rw [parse_go (switch_short hb.1 hb.2 _) ha (show _ = [[45, b]] ++ [] from rfl) (by simp) (by rw [hs])]
  rw [hs]
  rcases hm with ⟨rfl, rfl⟩ | ⟨rfl, rfl⟩ | ⟨rfl, rfl⟩ | ⟨rfl, rfl⟩ | ⟨rfl, rfl⟩ | ⟨rfl, rfl⟩ | ⟨rfl, rfl⟩ <;> rfl

/-- Settings behind such a command count as before it: a switch is never taken for the word of the command. -/
theorem control_then_settings (cwd : Bytes) (before behind : List Setup) {b : UInt8} {op : Op} (hm : (b, op) ∈ controlDefault) :
    parse cwd (setupWords before ++ [45, b] :: setupWords behind) = .run { settings {} (before ++ behind) with op := op } := by
  have hset : ∀ (l : List Setup) (c : Cmd), settings { c with op := op } l = { settings c l with op := op } := by
    intro l
    induction l with
    | nil => intro c; rfl
    | cons s l ih => intro c; rw [settings, settings, ← ih]; cases s <;> rfl
  have happ : ∀ (l : List Setup) (c : Cmd), settings c (l ++ behind) = settings (settings c l) behind := by
    intro l
    induction l with
    | nil => intro c; rfl
    | cons s l ih => intro c; exact ih _
  have hdash : setupWords behind = [] ∨ ∃ w r, setupWords behind = w :: r ∧ dash w = true := by
    cases behind with
    | nil => exact .inl rfl
    | cons s l => cases s <;> exact .inr ⟨_, _, rfl, by decide +kernel⟩
  simp only [controlDefault, List.mem_cons, List.not_mem_nil, or_false, Prod.mk.injEq] at hm
  have hb : plain.contains b = true ∧ withValue.contains b = false := by
    rcases hm with ⟨rfl, _⟩ | ⟨rfl, _⟩ | ⟨rfl, _⟩ | ⟨rfl, _⟩ | ⟨rfl, _⟩ | ⟨rfl, _⟩ | ⟨rfl, _⟩ <;> decide +kernel
  have ha : apply (settings {} before) b none (setupWords behind) = .go { settings {} before with op := op } (setupWords behind) := by
    generalize settings {} before = c
    rcases hdash with h | ⟨w, r, h, hd⟩
    · rw [h]
      rcases hm with ⟨rfl, rfl⟩ | ⟨rfl, rfl⟩ | ⟨rfl, rfl⟩ | ⟨rfl, rfl⟩ | ⟨rfl, rfl⟩ | ⟨rfl, rfl⟩ | ⟨rfl, rfl⟩ <;> rfl
    · rw [h]
      rcases hm with ⟨rfl, rfl⟩ | ⟨rfl, rfl⟩ | ⟨rfl, rfl⟩ | ⟨rfl, rfl⟩ | ⟨rfl, rfl⟩ | ⟨rfl, rfl⟩ | ⟨rfl, rfl⟩ <;>
        simp [apply, list, pause, scanDir, hd, Effect.ofOption]
  obtain ⟨n, cf, o, hs⟩ := settings_eq (before ++ behind) {}
  have hl := setup_length behind
  unfold parse
  rw [if_neg (by simp), List.length_append, loop_setup before]
  rw [show ([45, b] :: setupWords behind).length + ((setupWords before).length - before.length) =
    ((setupWords behind).length + ((setupWords before).length - before.length)) + 1 by simp only [List.length_cons]; omega, loop,
    switch_short hb.1 hb.2]
  dsimp only
  rw [ha]
  dsimp only
  have hloop := loop_setup behind ((setupWords before).length - before.length) { settings {} before with op := op }
    (0 + (setupWords before).length + (([45, b] :: setupWords behind).length - (setupWords behind).length)) []
  rw [List.append_nil] at hloop
  rw [hloop, loop_plain [] _ _ _ (by simp)]
  dsimp only
  rw [hset, ← happ, hs]
  dsimp only
  rw [if_neg (by decide), List.drop_eq_nil_of_le (by simp only [List.length_append, List.length_cons]; omega)]
  rcases hm with ⟨rfl, rfl⟩ | ⟨rfl, rfl⟩ | ⟨rfl, rfl⟩ | ⟨rfl, rfl⟩ | ⟨rfl, rfl⟩ | ⟨rfl, rfl⟩ | ⟨rfl, rfl⟩ <;> rfl

example : parse [] [lit "-L", lit "-c", lit "/etc/n.conf"] = .run { op := .listFiles, config := some (lit "/etc/n.conf") } := by decide +kernel

/-- **A command which takes no file is refused if one is given.** -/
theorem too_many (cwd : Bytes) (setup : List Setup) {b : UInt8} {u : String} {op : Op} {w f : Bytes} {more : List Bytes}
    (hw : isW w u = true) (hm : (b, u, op) ∈ control) (hf : ∀ x ∈ f :: more, Plain x) :
    parse cwd (setupWords setup ++ [45, b] :: w :: f :: more) = .error := by
  obtain ⟨n, cf, o, hs⟩ := settings_eq setup {}
  have hd : dash w = false := by
    have hmap : w.map WildMask.lower = (lit u).map WildMask.lower := by
      unfold isW Rpc.eqNoCase at hw
      exact beq_iff_eq.1 hw
    have hu : ((lit u).map WildMask.lower).head? ≠ some 45 := by
      simp only [control, List.mem_cons, List.not_mem_nil, or_false, Prod.mk.injEq] at hm
      rcases hm with ⟨_, rfl, _⟩ | ⟨_, rfl, _⟩ | ⟨_, rfl, _⟩ | ⟨_, rfl, _⟩ | ⟨_, rfl, _⟩ | ⟨_, rfl, _⟩ | ⟨_, rfl, _⟩ |
        ⟨_, rfl, _⟩ | ⟨_, rfl, _⟩ | ⟨_, rfl, _⟩ | ⟨_, rfl, _⟩ | ⟨_, rfl, _⟩ | ⟨_, rfl, _⟩ <;> decide +kernel
    rw [← hmap] at hu
    unfold dash
    cases w with
    | nil => decide
    | cons x l =>
      simp only [List.head?_cons, beq_eq_false_iff_ne, ne_eq, Option.some.injEq]
      intro q
      subst q
      exact hu (by simp; decide)
  have ha : apply (settings {} setup) b none (w :: f :: more) = .go { settings {} setup with op := op } (f :: more) := by
    rw [hs]
    simp only [control, List.mem_cons, List.not_mem_nil, or_false, Prod.mk.injEq] at hm
    rcases hm with ⟨rfl, rfl, rfl⟩ | ⟨rfl, rfl, rfl⟩ | ⟨rfl, rfl, rfl⟩ | ⟨rfl, rfl, rfl⟩ | ⟨rfl, rfl, rfl⟩ | ⟨rfl, rfl, rfl⟩ |
      ⟨rfl, rfl, rfl⟩ | ⟨rfl, rfl, rfl⟩ | ⟨rfl, rfl, rfl⟩ | ⟨rfl, rfl, rfl⟩ | ⟨rfl, rfl, rfl⟩ | ⟨rfl, rfl, rfl⟩ |
      ⟨rfl, rfl, rfl⟩ <;>
      (simp only [apply, pause, list, scanDir, hd, isW_of hw]; rfl)
  have hb : plain.contains b = true ∧ withValue.contains b = false := by
    simp only [control, List.mem_cons, List.not_mem_nil, or_false, Prod.mk.injEq] at hm
    rcases hm with ⟨rfl, _⟩ | ⟨rfl, _⟩ | ⟨rfl, _⟩ | ⟨rfl, _⟩ | ⟨rfl, _⟩ | ⟨rfl, _⟩ | ⟨rfl, _⟩ | ⟨rfl, _⟩ | ⟨rfl, _⟩ | ⟨rfl, _⟩ |
      ⟨rfl, _⟩ | ⟨rfl, _⟩ | ⟨rfl, _⟩ <;> decide +kernel
  rw [parse_go (switch_short hb.1 hb.2 _) ha (show _ = [[45, b], w] ++ (f :: more) from rfl) hf (by rw [hs])]
  rw [hs]
  simp only [control, List.mem_cons, List.not_mem_nil, or_false, Prod.mk.injEq] at hm
  rcases hm with ⟨rfl, rfl, rfl⟩ | ⟨rfl, rfl, rfl⟩ | ⟨rfl, rfl, rfl⟩ | ⟨rfl, rfl, rfl⟩ | ⟨rfl, rfl, rfl⟩ | ⟨rfl, rfl, rfl⟩ |
    ⟨rfl, rfl, rfl⟩ | ⟨rfl, rfl, rfl⟩ | ⟨rfl, rfl, rfl⟩ | ⟨rfl, rfl, rfl⟩ | ⟨rfl, rfl, rfl⟩ | ⟨rfl, rfl, rfl⟩ |
    ⟨rfl, rfl, rfl⟩ <;> rfl

/-- **The server can be started paused**: with -P beside -s or -D it does not ask a server to pause. -/
theorem start_paused (cwd : Bytes) (setup : List Setup) (d : Bool) :
    parse cwd (setupWords setup ++ [if d then lit "-D" else lit "-s", lit "-P"]) =
      .run { settings {} setup with server := true, daemon := d, pauseDownload := true } := by
  obtain ⟨n, cf, o, hs⟩ := settings_eq setup {}
  unfold parse
  rw [if_neg (by simp), List.length_append, loop_setup setup, hs]
  rw [show [if d then lit "-D" else lit "-s", lit "-P"].length + ((setupWords setup).length - setup.length) =
    ((setupWords setup).length - setup.length) + 2 by simp; omega]
  generalize (setupWords setup).length - setup.length = k
  generalize hL : (setupWords setup) = L
  cases d
  · show (match loop (k + 2) _ (0 + L.length) [lit "-s", lit "-P"] with
      | .error o => o
      | .ok (c, taken) => if c.printOptions then .run (finish c) else fileArgs cwd (finish c) ((L ++ [lit "-s", lit "-P"]).drop taken)) = _
    rw [show lit "-s" = [45, 115] by decide +kernel, show lit "-P" = [45, 80] by decide +kernel]
    rw [loop, switch_short (by decide +kernel) (by decide +kernel)]
    dsimp only
    rw [show ∀ c : Cmd, apply c 115 none [[45, 80]] = .go { c with server := true } [[45, 80]] from fun _ => rfl]
    dsimp only
    rw [loop, switch_short (by decide +kernel) (by decide +kernel)]
    dsimp only
    rw [show ∀ c : Cmd, apply c 80 none [] = .go { c with op := .downloadPause } [] from fun _ => rfl]
    dsimp only
    rw [loop_plain [] _ _ _ (by simp)]
    dsimp only
    rw [if_neg Bool.false_ne_true, List.drop_of_length_le (by simp)]
    rfl
  · show (match loop (k + 2) _ (0 + L.length) [lit "-D", lit "-P"] with
      | .error o => o
      | .ok (c, taken) => if c.printOptions then .run (finish c) else fileArgs cwd (finish c) ((L ++ [lit "-D", lit "-P"]).drop taken)) = _
    rw [show lit "-D" = [45, 68] by decide +kernel, show lit "-P" = [45, 80] by decide +kernel]
    rw [loop, switch_short (by decide +kernel) (by decide +kernel)]
    dsimp only
    rw [show ∀ c : Cmd, apply c 68 none [[45, 80]] = .go { c with server := true, daemon := true } [[45, 80]] from fun _ => rfl]
    dsimp only
    rw [loop, switch_short (by decide +kernel) (by decide +kernel)]
    dsimp only
    rw [show ∀ c : Cmd, apply c 80 none [] = .go { c with op := .downloadPause } [] from fun _ => rfl]
    dsimp only
    rw [loop_plain [] _ _ _ (by simp)]
    dsimp only
    rw [if_neg Bool.false_ne_true, List.drop_of_length_le (by simp)]
    rfl

/-! ### Switches behind the file -/

/-- **A configuration file named behind the file is sent instead of the file**: getopt counts the switch to the
front of its own copy of the words, the program looks into the original. -/
theorem late_switch_sent (cwd : Bytes) {f : Bytes} (hf : FileWord f) (conf : Bytes) :
    parse cwd [lit "-A", f, lit "-c", conf] =
      .run { op := .download, config := some conf, lastArg := some conf, argFile := some (fileArg cwd conf) } := by
  rw [show lit "-A" = [45, 65] by decide +kernel, show lit "-c" = [45, 99] by decide +kernel]
  unfold parse
  rw [if_neg (by simp)]
  show (match loop 4 {} 0 [[45, 65], f, [45, 99], conf] with
      | .error o => o
      | .ok (c, taken) => if c.printOptions then .run (finish c) else fileArgs cwd (finish c) ([[45, 65], f, [45, 99], conf].drop taken)) = _
  rw [loop, switch_short (by decide +kernel) (by decide +kernel)]
  dsimp only
  rw [apply_append, append_end hf.2]
  dsimp only [Effect.ofOption]
  rw [loop, switch_plain hf.1]
  dsimp only
  rw [loop, switch_value (by decide +kernel)]
  dsimp only
  rw [show ∀ c : Cmd, apply c 99 (some conf) [] = .go { c with config := some conf } [] from fun _ => rfl]
  dsimp only
  rw [loop_plain [] _ _ _ (by simp)]
  rfl

example : parse (lit "/home") [lit "-A", lit "x.nzb", lit "-c", lit "/etc/nzbget.conf"] =
    .run { op := .download, config := some (lit "/etc/nzbget.conf"), lastArg := some (lit "/etc/nzbget.conf"),
           argFile := some (lit "/etc/nzbget.conf") } := by decide +kernel

/-- **In the same way the ids are taken from the words of a late switch**: `-E D 5 -o x` never edits file 5 by
this list. -/
theorem late_switch_ids (cwd : Bytes) {a ids : Bytes} {u : String} {act : Action} (ha : isW a u = true)
    (hm : (Target.files, u, act) ∈ manual) (hi : Plain ids) (v : Bytes) :
    parse cwd [lit "-E", a, ids, lit "-o", v] =
      match parseIds [v] with
      | some l => .run { op := .edit, action := some act, options := [v], ids := l }
      | none => .error := by
  have key : ∀ (c : Cmd) (ops : List Bytes), edit c a ops = some ({ c with op := .edit, mode := .id, action := some act }, ops) := by
    intro c ops
    unfold edit
    simp only [isW_of ha]
    simp only [manual, List.mem_cons, List.not_mem_nil, or_false, Prod.mk.injEq, reduceCtorEq, false_and, true_and] at hm
    rcases hm with ⟨rfl, rfl⟩ | ⟨rfl, rfl⟩ | ⟨rfl, rfl⟩ | ⟨rfl, rfl⟩ | ⟨rfl, rfl⟩ <;>
      (simp only [editQueue, isW_of ha]; rfl)
  rw [show lit "-E" = [45, 69] by decide +kernel, show lit "-o" = [45, 111] by decide +kernel]
  unfold parse
  rw [if_neg (by simp)]
  show (match loop 5 {} 0 [[45, 69], a, ids, [45, 111], v] with
      | .error o => o
      | .ok (c, taken) => if c.printOptions then .run (finish c) else fileArgs cwd (finish c) ([[45, 69], a, ids, [45, 111], v].drop taken)) = _
  rw [loop, switch_value (by decide +kernel)]
  dsimp only
  rw [apply_edit, key]
  dsimp only [Effect.ofOption]
  rw [loop, switch_plain hi]
  dsimp only
  rw [loop, switch_value (by decide +kernel)]
  dsimp only
  rw [show ∀ c : Cmd, apply c 111 (some v) [] = .go { c with options := c.options ++ [v] } [] from fun _ => rfl]
  dsimp only
  rw [loop_plain [] _ _ _ (by simp)]
  show (match parseIds [v] with
    | some l => Outcome.run _
    | none => Outcome.error) = _
  cases parseIds [v] <;> rfl

example : parse [] [lit "-E", lit "D", lit "5", lit "-o", lit "7"] =
    .run { op := .edit, action := some .fileDelete, options := [lit "7"], ids := [7] } := by decide +kernel

end Verif.CmdArgs
