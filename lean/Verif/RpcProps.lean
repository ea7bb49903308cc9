import Verif.Rpc
import Verif.JsonTextProps
import Verif.UrlTextProps
/-! C72: what users with limited access can do by remote calls. C73: what can be done by following a link.
C74: the command which is named is executed. -/
namespace Verif.Rpc
open CStr
open Verif.WebAccess (Access Method)

/-! ### Specification -/

/-- Equal up to the case of ASCII letters. -/
def SameWord (a : Bytes) (b : String) : Prop := a.map WildMask.lower = (lit b).map WildMask.lower

/-- The word occurs in the name, in any case. -/
def Mentions (word : String) (name : Bytes) : Prop := ∃ x y, name.map WildMask.lower = x ++ lit word ++ y

/-- The options which restricted users must not see: everything about the security of the program, user names,
passwords and the options of scripts. -/
def Secret (name : Bytes) : Prop :=
  (∃ o ∈ ["ControlIp", "ControlPort", "FormAuth", "SecureControl", "SecurePort", "SecureCert", "SecureKey",
      "CertStore", "CertCheck", "AuthorizedIP", "DaemonUsername", "UMask"], SameWord name o) ∨
    58 ∈ name ∨ Mentions "username" name ∨ Mentions "password" name

/-- The commands which change something (queue, history, options, the state of the program) or start
something. -/
def Changes (c : Cmd) : Prop :=
  c ∈ [.pause, .resume, .shutdown, .reload, .rate, .editQueue, .append, .writeLog, .clearLog, .scan, .pausePost,
    .resumePost, .pauseScan, .resumeScan, .scheduleResume, .saveConfig, .viewFeed, .previewFeed, .fetchFeed,
    .editServer, .checkUpdates, .startUpdate, .resetServerVolume, .testServer, .startScript]

/-! ### Names -/

theorem eqNoCase_iff (a : Bytes) (b : String) : eqNoCase a (lit b) = true ↔ SameWord a b := by
  unfold eqNoCase SameWord; rw [beq_iff_eq]

theorem split_some {p : Bytes} : ∀ {s x y : Bytes}, split p s = some (x, y) → s = x ++ p ++ y := by
  intro s
  induction s with
  | nil =>
    intro x y h
    unfold split at h
    split at h
    · next e => injection h with h; injection h with h1 h2; subst h1; subst h2; simp [e]
    · exact nomatch h
  | cons b s ih =>
    intro x y h
    unfold split at h
    split at h
    · next hs =>
      injection h with h
      injection h with h1 h2
      subst h1
      unfold startsWith at hs
      rw [List.isPrefixOf_iff_prefix] at hs
      obtain ⟨t, ht⟩ := hs
      rw [← h2, ← ht, List.drop_left]
      simp
    · cases hr : split p s with
      | none => rw [hr] at h; exact nomatch h
      | some r =>
        rw [hr] at h
        injection h with h
        injection h with h1 h2
        subst h1
        subst h2
        rw [ih hr]
        rfl

theorem split_complete (p : Bytes) : ∀ (x y : Bytes), (split p (x ++ p ++ y)).isSome = true := by
  intro x
  induction x with
  | nil =>
    intro y
    rw [List.nil_append]
    cases h : p ++ y with
    | nil => rw [List.append_eq_nil_iff] at h; simp [split, h.1]
    | cons b t =>
      unfold split
      rw [← h, if_pos (startsWith_append p y)]
      rfl
  | cons b x ih =>
    intro y
    rw [List.cons_append, List.cons_append]
    unfold split
    split
    · rfl
    · rw [Option.isSome_map]; exact ih y

theorem split_isSome_iff (p s : Bytes) : (split p s).isSome = true ↔ ∃ x y, s = x ++ p ++ y := by
  constructor
  · intro h
    obtain ⟨r, hr⟩ := Option.isSome_iff_exists.mp h
    exact ⟨r.1, r.2, split_some hr⟩
  · rintro ⟨x, y, rfl⟩; exact split_complete p x y

theorem restricted_iff (name : Bytes) (h : name.length < 1024) : restricted name = true ↔ Secret name := by
  unfold restricted Secret Mentions
  rw [List.take_of_length_le (by omega)]
  simp only [Bool.or_eq_true, List.any_eq_true, eqNoCase_iff, List.contains_iff_mem, split_isSome_iff, or_assoc]

/-! ### Executed commands -/

theorem multiCall_mem (a : Access) : ∀ (n : Nat) (s : Bytes), ∀ c ∈ multiCall a n s, ∃ name, c = ⟨create a name, none⟩ := by
  intro n
  induction n with
  | zero => intro s c hc; exact nomatch hc
  | succ n ih =>
    intro s c hc
    unfold multiCall at hc
    split at hc
    · exact nomatch hc
    · split at hc
      · exact nomatch hc
      · rcases List.mem_cons.mp hc with rfl | hc
        · exact ⟨_, rfl⟩
        · exact ih _ c hc

theorem rpc_mem {a : Access} {m : Method} {url request : Bytes} {cs : List Call} (h : rpc a m url request = some cs) :
    ∀ c ∈ cs, ∃ name, c.cmd = create a name := by
  unfold rpc at h
  rw [Option.map_eq_some_iff] at h
  obtain ⟨u, -, h⟩ := h
  subst h
  intro c hc
  split at hc
  · exact nomatch hc
  · unfold dispatch at hc
    dsimp only at hc
    split at hc
    · obtain ⟨n, rfl⟩ := multiCall_mem a _ _ c hc; exact ⟨n, rfl⟩
    · split at hc
      · rw [List.mem_singleton] at hc; subst hc; exact ⟨_, rfl⟩
      · exact nomatch hc

/-- **C74.** Every command has one name only, but for the documented synonyms: no name stands for the command of another
one. -/
theorem one_name_per_command : ∀ a ∈ names, ∀ b ∈ names, a.2 = b.2 → a.1 = b.1 ∨
    (a.1 ∈ ["pause", "pausedownload", "pausedownload2"] ∧ b.1 ∈ ["pause", "pausedownload", "pausedownload2"]) ∨
    (a.1 ∈ ["resume", "resumedownload", "resumedownload2"] ∧ b.1 ∈ ["resume", "resumedownload", "resumedownload2"]) ∨
    (a.1 ∈ ["append", "appendurl"] ∧ b.1 ∈ ["append", "appendurl"]) := by decide +kernel

/-- The names are different from each other. -/
theorem names_distinct : names.Pairwise (fun a b => eqNoCase (lit a.1) (lit b.1) = false) := by decide +kernel

/-- Each name of the list, in any case, stands for its command. -/
theorem lookup_spec (name : Bytes) (e : String × Cmd) (he : e ∈ names) (hn : SameWord name e.1) : lookup name = e.2 := by
  have key : ∀ l : List (String × Cmd), l.Pairwise (fun a b => eqNoCase (lit a.1) (lit b.1) = false) → e ∈ l →
      l.find? (fun x => eqNoCase name (lit x.1)) = some e := by
    intro l
    induction l with
    | nil => intro _ h; exact nomatch h
    | cons x l ih =>
      intro hp hm
      rw [List.pairwise_cons] at hp
      rcases List.mem_cons.mp hm with rfl | hm
      · rw [List.find?_cons, (eqNoCase_iff _ _).mpr hn]
      · rw [List.find?_cons, ih hp.2 hm]
        cases hx : eqNoCase name (lit x.1) with
        | false => rfl
        | true => ?_
        exfalso
        have h1 := hp.1 e hm
        rw [eqNoCase_iff] at hx
        have : SameWord (lit x.1) e.1 := hx.symm.trans hn
        rw [← eqNoCase_iff] at this
        rw [h1] at this
        exact nomatch this
  unfold lookup
  rw [key names names_distinct he]

theorem lookup_none (name : Bytes) (h : ∀ e ∈ names, ¬ SameWord name e.1) : lookup name = .error 1 := by
  unfold lookup
  rw [List.find?_eq_none.mpr]
  intro e he
  rw [eqNoCase_iff]
  exact h e he

/-- What the lookup gives: the command of the name, or an error. -/
theorem lookup_cases (name : Bytes) : (∃ e ∈ names, SameWord name e.1 ∧ lookup name = e.2) ∨ lookup name = .error 1 := by
  unfold lookup
  cases h : names.find? (fun e => eqNoCase name (lit e.1)) with
  | none => exact Or.inr rfl
  | some e => exact Or.inl ⟨e, List.mem_of_find?_eq_some h, (eqNoCase_iff _ _).mp (List.find?_some (p := fun e : String × Cmd => eqNoCase name (lit e.1)) h), rfl⟩

/-! ### C72 -/

/-- **C72.** Whatever a user with the right to add sends: nothing is executed but adding, the version and
error messages. -/
theorem add_user_only_adds (m : Method) (url request : Bytes) (cs : List Call) (h : rpc .add m url request = some cs) :
    ∀ c ∈ cs, c.cmd = .append ∨ c.cmd = .version ∨ ∃ n, c.cmd = .error n := by
  intro c hc
  obtain ⟨name, hn⟩ := rpc_mem h c hc
  rw [hn]
  unfold create
  split
  · exact Or.inr (Or.inr ⟨_, rfl⟩)
  · next h1 =>
    rw [if_neg (by intro h; exact nomatch h.1)]
    have h2 : SameWord name "append" ∨ SameWord name "appendurl" ∨ SameWord name "version" := by
      simp only [← eqNoCase_iff]
      have : ¬ ((!(eqNoCase name (lit "append") || eqNoCase name (lit "appendurl") || eqNoCase name (lit "version"))) = true) :=
        fun h => h1 ⟨rfl, h⟩
      rw [Bool.not_eq_true', Bool.not_eq_false, Bool.or_eq_true, Bool.or_eq_true, or_assoc] at this
      exact this
    rcases h2 with h2 | h2 | h2
    · exact Or.inl (lookup_spec name ("append", .append) (by decide) h2)
    · exact Or.inl (lookup_spec name ("appendurl", .append) (by decide) h2)
    · exact Or.inr (Or.inl (lookup_spec name ("version", .version) (by decide) h2))

/-- **C72.** Whatever a restricted user sends, the options are not saved. -/
theorem restricted_never_saves (m : Method) (url request : Bytes) (cs : List Call)
    (h : rpc .restricted m url request = some cs) : ∀ c ∈ cs, c.cmd ≠ .saveConfig := by
  intro c hc
  obtain ⟨name, hn⟩ := rpc_mem h c hc
  rw [hn]
  unfold create
  rw [if_neg (by intro h; exact nomatch h.1)]
  split
  · intro h; exact nomatch h
  · next h1 =>
    intro he
    rcases lookup_cases name with ⟨e, hm, hs, hl⟩ | hl
    · rw [hl] at he
      have : ∀ x ∈ names, x.2 = .saveConfig → x.1 = "saveconfig" := by decide
      rw [this e hm he, ← eqNoCase_iff] at hs
      exact h1 ⟨rfl, hs⟩
    · rw [hl] at he; exact nomatch he

/-- Options with two values each, which are different only for secret options. -/
def SameButSecret (l : List (Bytes × Bytes × Bytes)) : Prop :=
  ∀ o ∈ l, o.1.length < 1024 ∧ (o.2.1 = o.2.2 ∨ Secret o.1)

theorem shown_same (junk : Access) (l : List (Bytes × Bytes × Bytes)) (h : SameButSecret l) :
    shown junk (some .restricted) (l.map (fun o => (o.1, o.2.1))) =
      shown junk (some .restricted) (l.map (fun o => (o.1, o.2.2))) := by
  unfold shown
  rw [List.map_map, List.map_map]
  apply List.map_congr_left
  intro o ho
  obtain ⟨h1, h2⟩ := h o ho
  simp only [Function.comp_apply, Option.getD_some, true_and]
  rcases h2 with h2 | h2
  · rw [h2]
  · rw [if_pos ((restricted_iff o.1 h1).mpr h2), if_pos ((restricted_iff o.1 h1).mpr h2)]

/-- **C72.** The answers to a restricted user do not depend on the values of secret options, if they do not
use `system.multicall`: for any two sets of values of the secret options the answers are the same.
Missing: `system.multicall`, for which it does not hold (`multicall_shows_secrets`). -/
theorem secrets_hidden_partial (junk : Access) (m : Method) (url request : Bytes) (cs : List Call)
    (h : rpc .restricted m url request = some cs)
    (hm : m = .get ∨ ¬ SameWord (tagValue (lit "methodName") request) "system.multicall")
    (l file : List (Bytes × Bytes × Bytes)) (hl : SameButSecret l) (hf : SameButSecret file) :
    cs.map (answer junk (l.map (fun o => (o.1, o.2.1))) (file.map (fun o => (o.1, o.2.1)))) =
      cs.map (answer junk (l.map (fun o => (o.1, o.2.2))) (file.map (fun o => (o.1, o.2.2)))) := by
  have hacc : ∀ c ∈ cs, c.access = some .restricted := by
    unfold rpc at h
    rw [Option.map_eq_some_iff] at h
    obtain ⟨u, -, h⟩ := h
    subst h
    intro c hc
    split at hc
    · exact nomatch hc
    · next p hp =>
      unfold dispatch at hc
      dsimp only at hc
      split at hc
      · next hmc =>
        obtain ⟨h1, h2, h3⟩ := hmc
        subst h2
        unfold methodName at h1
        rw [if_neg h3, eqNoCase_iff] at h1
        exact absurd h1 (hm.resolve_left h3)
      · split at hc
        · rw [List.mem_singleton] at hc; subst hc; rfl
        · exact nomatch hc
  apply List.map_congr_left
  intro c hc
  unfold answer
  rw [hacc c hc]
  split
  · exact shown_same junk l hl
  · exact shown_same junk file hf
  · rfl

/-- The request of a restricted user which asks for the options by `system.multicall`. -/
def multiRequest : Bytes :=
  lit "<methodCall><methodName>system.multicall</methodName><params><struct><name>methodName</name><value><string>config</string></value></struct></params></methodCall>"

theorem multiRequest_calls : rpc .restricted .post (lit "/xmlrpc") multiRequest = some [⟨.config, none⟩] := by
  decide +kernel

/-- **C72, violation.** By `system.multicall` a restricted user gets the values of all options, also of
passwords, whenever the member which is not set happens not to be the value for restricted users. -/
theorem multicall_shows_secrets (junk : Access) (hj : junk ≠ .restricted) (opts file : List (Bytes × Bytes)) :
    ∃ cs, rpc .restricted .post (lit "/xmlrpc") multiRequest = some cs ∧ cs.map (answer junk opts file) = [opts] := by
  refine ⟨_, multiRequest_calls, ?_⟩
  simp only [List.map_cons, List.map_nil, answer, shown, Option.getD_none, hj, false_and, if_false]
  simp

/-- A case of the hypotheses: the password is masked in a plain call. -/
example : rpc .restricted .get (lit "/jsonrpc/config") [] = some [⟨.config, some .restricted⟩] ∧
    shown .control (some .restricted) [(lit "ControlPassword", lit "secret"), (lit "MainDir", lit "/d")] =
      [(lit "ControlPassword", lit "***"), (lit "MainDir", lit "/d")] := by decide +kernel
example : rpc .add .post (lit "/jsonrpc") (lit "{\"method\":\"shutdown\"}") = some [⟨.error 401, some .add⟩] ∧
    rpc .add .post (lit "/jsonrpc") (lit "{\"method\":\"Append\"}") = some [⟨.append, some .add⟩] := by decide +kernel

/-! ### C73 -/

/-- **C73.** Following a link (a request with the method GET) executes no command which changes something, unless
the url is one of JSON-P. Missing: JSON-P, for which it does not hold (`jsonp_link_executes`). -/
theorem links_change_nothing_partial (a : Access) (url request : Bytes) (cs : List Call)
    (h : rpc a .get url request = some cs)
    (hj : ∀ u, UrlText.urlDecode url = some u → ¬ (u = lit "/jsonprpc" ∨ startsWith (lit "/jsonprpc/") u)) :
    ∀ c ∈ cs, ¬ Changes c.cmd := by
  unfold rpc at h
  rw [Option.map_eq_some_iff] at h
  obtain ⟨u, hu, h⟩ := h
  subst h
  intro c hc
  split at hc
  · exact nomatch hc
  · next p hp =>
    have hpj : p ≠ .jsonp := by
      rintro rfl
      unfold protocol at hp
      split at hp
      · exact nomatch hp
      · split at hp
        · exact nomatch hp
        · split at hp
          · next hx => exact hj u hu hx
          · exact nomatch hp
    unfold dispatch at hc
    dsimp only at hc
    rw [if_neg (fun h => h.2.2 rfl)] at hc
    split at hc
    · next hs =>
      rw [List.mem_singleton] at hc
      subst hc
      dsimp only
      generalize create a (methodName .get p u request) = x at hs ⊢
      have hs' : safe x = true ∨ isError x = true := by
        rcases hs with h | h | h | h
        · exact Or.inl h
        · exact absurd rfl h
        · exact absurd h hpj
        · exact Or.inr h
      intro hch
      cases x <;> revert hs' hch <;> simp [safe, isError, Changes]
    · exact nomatch hc

/-- **C73, violation.** A link of JSON-P executes every command, with the access of whoever follows it. -/
theorem jsonp_link_executes : rpc .control .get (lit "/jsonprpc/shutdown") [] = some [⟨.shutdown, some .control⟩] := by
  decide +kernel

/-- Every command can be executed by a link of JSON-P. -/
theorem jsonp_link_executes_all : ∀ e ∈ names,
    rpc .control .get (lit "/jsonprpc/" ++ lit e.1) [] = some [⟨e.2, some .control⟩] := by decide +kernel

example : rpc .control .get (lit "/jsonrpc/shutdown") [] = some [] ∧
    rpc .control .get (lit "/jsonrpc/status?a=1") [] = some [⟨.status, some .control⟩] := by decide +kernel

/-! ### C74: the named command is executed -/

/-- A method name as clients send it: letters, digits and underscores. -/
def Word (name : Bytes) : Prop :=
  ∀ c ∈ name, (48 ≤ c.toNat ∧ c.toNat ≤ 57) ∨ (65 ≤ c.toNat ∧ c.toNat ≤ 90) ∨ c = 95 ∨ (97 ≤ c.toNat ∧ c.toNat ≤ 122)

/-- What a user may do with a command of this name. -/
def Permitted (a : Access) (name : Bytes) : Prop :=
  match a with
  | .control => True
  | .restricted => ¬ SameWord name "saveconfig"
  | .add => SameWord name "append" ∨ SameWord name "appendurl" ∨ SameWord name "version"

theorem create_permitted (a : Access) (name : Bytes) (h : Permitted a name) : create a name = lookup name := by
  unfold create
  simp only [← eqNoCase_iff, Permitted] at h
  cases a with
  | control => simp
  | restricted => simp only [eqNoCase_iff] at h ⊢; simp [eqNoCase_iff, h]
  | add =>
    have : (eqNoCase name (lit "append") || eqNoCase name (lit "appendurl") || eqNoCase name (lit "version")) = true := by
      simp only [Bool.or_eq_true, or_assoc]; exact h
    simp [this]

theorem create_forbidden (a : Access) (name : Bytes) (h : ¬ Permitted a name) : create a name = .error 401 := by
  unfold create
  simp only [← eqNoCase_iff, Permitted] at h
  cases a with
  | control => exact absurd trivial h
  | restricted =>
    have h : eqNoCase name (lit "saveconfig") = true := Classical.byContradiction (fun x => h (by simpa [← eqNoCase_iff] using x))
    simp [h]
  | add =>
    have : (eqNoCase name (lit "append") || eqNoCase name (lit "appendurl") || eqNoCase name (lit "version")) = false := by
      rw [← Bool.not_eq_true]
      simp only [Bool.or_eq_true, or_assoc]; exact h
    simp [this]

/-- What the request must execute: the command of the name for whoever may use it, else the error 401; the error
1 if there is no command of this name. -/
inductive Means (a : Access) (name : Bytes) : Cmd → Prop
  | run (e : String × Cmd) : e ∈ names → SameWord name e.1 → Permitted a name → Means a name e.2
  | denied : ¬ Permitted a name → Means a name (.error 401)
  | unknown : Permitted a name → (∀ e ∈ names, ¬ SameWord name e.1) → Means a name (.error 1)

theorem create_means (a : Access) (name : Bytes) : Means a name (create a name) := by
  by_cases hp : Permitted a name
  · rw [create_permitted a name hp]
    by_cases h : ∃ e ∈ names, SameWord name e.1
    · obtain ⟨e, he, hs⟩ := h
      rw [lookup_spec name e he hs]
      exact .run e he hs hp
    · have h' : ∀ e ∈ names, ¬ SameWord name e.1 := fun e he hs => h ⟨e, he, hs⟩
      rw [lookup_none name h']
      exact .unknown hp h'
  · rw [create_forbidden a name hp]
    exact .denied hp

/-- The meaning is unique. -/
theorem means_unique (a : Access) (name : Bytes) (c : Cmd) (h : Means a name c) : c = create a name := by
  cases h with
  | run e he hs hp => rw [create_permitted a name hp, lookup_spec name e he hs]
  | denied hp => rw [create_forbidden a name hp]
  | unknown hp hn => rw [create_permitted a name hp, lookup_none name hn]

theorem word_no {name : Bytes} (h : Word name) (x : UInt8)
    (hx : ¬ ((48 ≤ x.toNat ∧ x.toNat ≤ 57) ∨ (65 ≤ x.toNat ∧ x.toNat ≤ 90) ∨ x = 95 ∨ (97 ≤ x.toNat ∧ x.toNat ≤ 122))) :
    x ∉ name := fun hm => hx (h x hm)

/-- No word is `system.multicall`. -/
theorem word_not_multi {name : Bytes} (h : Word name) : eqNoCase name (lit "system.multicall") = false := by
  rw [← Bool.not_eq_true, eqNoCase_iff]
  intro hs
  have h46 : (46 : UInt8) ∈ (lit "system.multicall").map WildMask.lower := by decide
  rw [← hs, List.mem_map] at h46
  obtain ⟨c, hc, hl⟩ := h46
  have hw := h c hc
  unfold WildMask.lower at hl
  split at hl
  · next hr =>
    have := congrArg UInt8.toNat hl
    rw [UInt8.toNat_ofNat'] at this
    have e46 : (46 : UInt8).toNat = 46 := rfl
    omega
  · subst hl
    revert hw
    decide

theorem split_here (p s : Bytes) (hp : p ≠ []) : split p (p ++ s) = some ([], s) := by
  cases p with
  | nil => exact absurd rfl hp
  | cons b p =>
    have h : startsWith (b :: p) (b :: (p ++ s)) = true := startsWith_append (b :: p) s
    rw [List.cons_append, split, if_pos h]
    congr 2
    exact List.drop_left (l₁ := b :: p)

theorem split_skip (a : UInt8) (p t s : Bytes) (h : a ∉ t) :
    split (a :: p) (t ++ s) = (split (a :: p) s).map (fun r => (t ++ r.1, r.2)) := by
  induction t with
  | nil => rw [List.nil_append]; cases split (a :: p) s <;> rfl
  | cons b t ih =>
    have hb : startsWith (a :: p) (b :: (t ++ s)) = false := by
      have : a ≠ b := fun e => h (e ▸ List.mem_cons_self)
      simp [startsWith, List.isPrefixOf, this]
    rw [List.cons_append, split, if_neg (by rw [hb]; simp), ih (fun hm => h (List.mem_cons_of_mem _ hm)), Option.map_map]
    rfl

theorem urlDecode_plain (u : Bytes) (h : 37 ∉ u) (h0 : 0 ∉ u) : UrlText.urlDecode u = some u := by
  have key : ∀ l : Bytes, 37 ∉ l → UrlText.urlLoop l = some l := by
    intro l
    induction l with
    | nil => intro _; rfl
    | cons c l ih =>
      intro hl
      have hc : c ≠ 37 := fun e => hl (e ▸ List.mem_cons_self)
      rw [UrlText.urlLoop.eq_def]
      dsimp only
      rw [if_neg hc, ih (fun hm => hl (List.mem_cons_of_mem _ hm))]
      rfl
  unfold UrlText.urlDecode
  rw [key u h, Option.map_some, cstr_of_no_nul (fun b hb e => h0 (e ▸ hb))]

/-- **C74.** A call in JSON executes exactly the command which is named, if the user may use it. -/
theorem json_call (a : Access) (name tail : Bytes) (hw : Word name) (hn : name ≠ []) (hl : name.length ≤ 97) :
    ∃ c, Means a name c ∧
      rpc a .post (lit "/jsonrpc") (lit "{\"method\": \"" ++ name ++ lit "\"" ++ tail) = some [⟨c, some a⟩] := by
  refine ⟨_, create_means a name, ?_⟩
  unfold rpc
  rw [urlDecode_plain (lit "/jsonrpc") (by decide) (by decide), Option.map_some,
    show protocol (lit "/jsonrpc") = some .json by decide]
  have hb : JsonText.Body false name := by
    have h34 := word_no hw 34 (by decide)
    have h92 := word_no hw 92 (by decide)
    have h32 : ∀ c ∈ name, 32 ≤ c.toNat := by
      intro c hc
      rcases hw c hc with h | h | h | h
      · omega
      · omega
      · subst h; decide
      · omega
    clear hw hn hl
    induction name with
    | nil => exact .nil _
    | cons c l ih =>
      refine .plain _ c l (h32 c List.mem_cons_self) ?_ ?_ (ih (fun h => h34 (List.mem_cons_of_mem _ h)) (fun h => h92 (List.mem_cons_of_mem _ h))
        (fun x hx => h32 x (List.mem_cons_of_mem _ hx)))
      · exact fun e => h34 (e ▸ List.mem_cons_self)
      · exact fun e => h92 (e ▸ List.mem_cons_self)
  have hmeth : jsonMethod (lit "{\"method\": \"" ++ name ++ lit "\"" ++ tail) = name := by
    unfold jsonMethod
    have e : lit "{\"method\": \"" ++ name ++ lit "\"" ++ tail =
        [123] ++ (lit "\"method\"" ++ ([58, 32] ++ 34 :: name ++ 34 :: tail)) := by
      have e1 : lit "{\"method\": \"" = 123 :: lit "\"method\"" ++ [58, 32, 34] := by decide
      have e2 : lit "\"" = [34] := by decide
      rw [e1, e2]; simp
    have e3 : lit "\"method\"" = 34 :: lit "method\"" := by decide
    rw [e]
    have hs : split (lit "\"method\"") ([123] ++ (lit "\"method\"" ++ ([58, 32] ++ 34 :: name ++ 34 :: tail))) =
        some ([123], [58, 32] ++ 34 :: name ++ 34 :: tail) := by
      have := split_skip 34 (lit "method\"") [123] (lit "\"method\"" ++ ([58, 32] ++ 34 :: name ++ 34 :: tail)) (by decide)
      rw [← e3] at this
      rw [this, split_here _ _ (by decide)]
      rfl
    rw [hs]
    dsimp only
    rw [JsonText.string_value_found_partial [58, 32] name tail (by decide) hb]
    dsimp only
    have hpos : 0 < name.length := List.length_pos_iff.mpr hn
    have hlen : ([34] ++ name ++ [34] : Bytes).length = name.length + 2 := by simp
    rw [hlen, if_neg (by omega)]
    unfold bset
    have e4 : (([34] ++ name ++ [34] ++ tail : Bytes)).drop 1 = name ++ (34 :: tail) := by simp
    rw [e4, if_pos (by omega), show ((((name.length + 2 : Nat) : Int)) - 2).toNat = name.length by omega,
      Nat.min_eq_right (by omega), List.take_left' rfl]
  have hd : dispatch a .post .json (lit "/jsonrpc") (lit "{\"method\": \"" ++ name ++ lit "\"" ++ tail) = [⟨create a name, some a⟩] := by
    unfold dispatch methodName
    dsimp only
    rw [if_neg (fun h : Method.post = .get => nomatch h), hmeth, if_neg (fun h => nomatch h.2.1), if_pos (Or.inr (Or.inl (fun h => nomatch h)))]
  dsimp only
  rw [hd]

example : Word (lit "editQueue") ∧ rpc .restricted .post (lit "/jsonrpc") (lit "{\"method\": \"editQueue\", \"params\": []}") =
    some [⟨.editQueue, some .restricted⟩] := by unfold Word; decide +kernel

/-- **C74.** A call in XML executes exactly the command which is named, if the user may use it. -/
theorem xml_call (a : Access) (name tail : Bytes) (hw : Word name) (hl : name.length ≤ 99) :
    ∃ c, Means a name c ∧
      rpc a .post (lit "/xmlrpc") (lit "<?xml version=\"1.0\"?><methodCall><methodName>" ++ name ++ lit "</methodName>" ++ tail) =
        some [⟨c, some a⟩] := by
  refine ⟨_, create_means a name, ?_⟩
  unfold rpc
  rw [urlDecode_plain (lit "/xmlrpc") (by decide) (by decide), Option.map_some,
    show protocol (lit "/xmlrpc") = some .xml by decide]
  have h60 := word_no hw 60 (by decide)
  have hmeth : tagValue (lit "methodName") (lit "<?xml version=\"1.0\"?><methodCall><methodName>" ++ name ++ lit "</methodName>" ++ tail) = name := by
    have e : lit "<?xml version=\"1.0\"?><methodCall><methodName>" ++ name ++ lit "</methodName>" ++ tail =
        lit "<?xml version=\"1.0\"?><methodCall>" ++ (lit "<methodName>" ++ (name ++ (lit "</methodName>" ++ tail))) := by
      have e1 : lit "<?xml version=\"1.0\"?><methodCall><methodName>" = lit "<?xml version=\"1.0\"?><methodCall>" ++ lit "<methodName>" := by decide
      rw [e1]; simp only [List.append_assoc]
    rw [e]
    generalize hX : name ++ (lit "</methodName>" ++ tail) = X
    have h1 : split (lit "<" ++ lit "methodName" ++ lit ">") (lit "<?xml version=\"1.0\"?><methodCall>" ++ (lit "<methodName>" ++ X)) =
        some (lit "<?xml version=\"1.0\"?><methodCall>", X) := by
      simp [lit, split, startsWith, List.isPrefixOf]
    have h3 : split (lit "</" ++ lit "methodName" ++ lit ">") X = some (name, tail) := by
      rw [← hX]
      have e2 : lit "</" ++ lit "methodName" ++ lit ">" = 60 :: lit "/methodName>" := by decide
      have e3 : lit "</methodName>" = 60 :: lit "/methodName>" := by decide
      rw [e2, split_skip 60 _ name _ h60, e3, split_here _ _ (by simp)]
      simp
    have h2 : ∀ r, split (lit "<" ++ lit "methodName" ++ lit "/>") (lit "<?xml version=\"1.0\"?><methodCall>" ++ (lit "<methodName>" ++ X)) = some r →
        ¬ r.1.length < (lit "<?xml version=\"1.0\"?><methodCall>").length := by
      intro r hr
      have h5 : split (lit "<" ++ lit "methodName" ++ lit "/>") (lit "<?xml version=\"1.0\"?><methodCall>" ++ (lit "<methodName>" ++ X)) =
          (split (lit "<" ++ lit "methodName" ++ lit "/>") X).map (fun r =>
            (lit "<?xml version=\"1.0\"?><methodCall><methodName>" ++ r.1, r.2)) := by
        simp [lit, split, startsWith, List.isPrefixOf, Function.comp_def]
      rw [h5, Option.map_eq_some_iff] at hr
      obtain ⟨t, -, rfl⟩ := hr
      dsimp only
      have h6 : (lit "<?xml version=\"1.0\"?><methodCall><methodName>").length = 45 := by decide
      have h7 : (lit "<?xml version=\"1.0\"?><methodCall>").length = 33 := by decide
      rw [List.length_append, h6, h7]
      omega
    unfold tagValue findTag
    dsimp only
    rw [h1]
    cases h4 : split (lit "<" ++ lit "methodName" ++ lit "/>") (lit "<?xml version=\"1.0\"?><methodCall>" ++ (lit "<methodName>" ++ X)) with
    | none => dsimp only; rw [h3, Option.map_some, Option.getD_some, List.take_of_length_le hl]
    | some r =>
      dsimp only
      rw [if_neg (h2 r h4), h3, Option.map_some, Option.getD_some, List.take_of_length_le hl]
  have hd : dispatch a .post .xml (lit "/xmlrpc") (lit "<?xml version=\"1.0\"?><methodCall><methodName>" ++ name ++ lit "</methodName>" ++ tail) =
      [⟨create a name, some a⟩] := by
    unfold dispatch methodName
    dsimp only
    rw [if_neg (fun h : Method.post = .get => nomatch h), hmeth, if_neg (fun h => by rw [word_not_multi hw] at h; exact nomatch h.1), if_pos (Or.inr (Or.inl (fun h => nomatch h)))]
  dsimp only
  rw [hd]

/-- **C74.** A link executes exactly the command which is named, if the user may use it and it changes nothing. -/
theorem get_call (a : Access) (name : Bytes) (hw : Word name) (hl : name.length ≤ 99) :
    ∃ c, Means a name c ∧ rpc a .get (lit "/jsonrpc/" ++ name) [] = some (if safe c ∨ isError c then [⟨c, some a⟩] else []) := by
  refine ⟨_, create_means a name, ?_⟩
  unfold rpc
  have h37 := word_no hw 37 (by decide)
  have h0 := word_no hw 0 (by decide)
  have h63 := word_no hw 63 (by decide)
  rw [urlDecode_plain _ (by intro h; rcases List.mem_append.mp h with h | h; exact absurd h (by decide); exact h37 h)
    (by intro h; rcases List.mem_append.mp h with h | h; exact absurd h (by decide); exact h0 h), Option.map_some]
  have hp : protocol (lit "/jsonrpc/" ++ name) = some .json := by
    unfold protocol
    rw [if_neg (by simp [lit, startsWith, List.isPrefixOf]), if_pos (Or.inr (startsWith_append _ _))]
  rw [hp]
  have hm : methodName .get .json (lit "/jsonrpc/" ++ name) [] = name := by
    unfold methodName urlMethod
    rw [if_pos rfl]
    have : ((lit "/jsonrpc/" ++ name).drop 1).dropWhile (· != 47) = 47 :: name := by
      simp [lit, List.dropWhile]
    rw [this]
    dsimp only
    rw [if_neg h63]
    unfold bset
    rw [if_neg (by omega), List.take_of_length_le hl]
  dsimp only
  unfold dispatch
  rw [hm]
  dsimp only
  rw [if_neg (fun h => nomatch h.2.1)]
  congr 1
  simp

end Verif.Rpc
