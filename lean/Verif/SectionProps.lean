import Verif.Section
import Verif.TaskDefProps
import Verif.WildMaskProps
/-
What the definitions of servers, categories and feeds mean (C103).
-/
namespace Verif.Section
open CStr OptStore OptValue TaskDef

/-! ### Specification -/

/-- The words for yes and for no. -/
def words (b : Bool) : List String :=
  if b then ["yes", "true", "1", "on", "enable", "enabled"] else ["no", "false", "0", "off", "disable", "disabled"]

/-- The option says `b`: with one of the words in any case, or because it is not set and `b` is what holds then. -/
def Says (get : Env) (k : Bytes) (dflt b : Bool) : Prop :=
  (get k = none ∧ b = dflt) ∨ ∃ v d, get k = some (v, d) ∧ ∃ w ∈ words b, Same v (lit w)

/-- The option gives the number `n`: with digits, or because it is not set and `n` is what holds then. -/
def Gives (get : Env) (k : Bytes) (dflt n : Int) : Prop :=
  (get k = none ∧ n = dflt) ∨ ∃ ds d, get k = some (ds, d) ∧ Digits ds ∧ n = valueIn 10 ds ∧ valueIn 10 ds < 2 ^ 31

/-- The option is the text `s`, which is empty if the option is not set. -/
def Holds (get : Env) (k s : Bytes) : Prop := (get k = none ∧ s = []) ∨ ∃ d, get k = some (s, d)

/-- ServerN.IpVersion. -/
def Ip (get : Env) (k : Bytes) (v : Int) : Prop :=
  (get k = none ∧ v = 0) ∨ ∃ t d, get k = some (t, d) ∧
    ((Same t (lit "auto") ∧ v = 0) ∨ (Same t (lit "ipv4") ∧ v = 4) ∨ (Same t (lit "ipv6") ∧ v = 6))

/-- The name of a section without one. -/
def Named (get : Env) (k : Bytes) (word : String) (n : Nat) (s : Bytes) : Prop :=
  (Holds get k [] ∧ s = lit word ++ dec n) ∨ (Holds get k s ∧ s ≠ [])

/-! ### Proofs -/

theorem says_flag {get : Env} {k : Bytes} {dflt b : Bool} (h : Says get k dflt b) : flag get k dflt = (b, false) := by
  unfold flag
  rcases h with ⟨h, rfl⟩ | ⟨v, d, h, hw⟩
  · rw [h]
  · rw [h]
    dsimp only
    rw [bool_words v d b (words b) rfl hw]
    cases b <;> rfl

theorem gives_number {get : Env} {k : Bytes} {dflt n : Int} (h : Gives get k dflt n) : number get k dflt = n := by
  unfold number val
  rcases h with ⟨h, rfl⟩ | ⟨ds, d, h, h1, h2, h3⟩
  · rw [h]; rfl
  · rw [h, h2]
    have := intOf_digits ds [] h1 (fun _ e => nomatch e) h3
    rwa [List.append_nil] at this

theorem holds_text {get : Env} {k s : Bytes} (h : Holds get k s) : textOr get k = s := by
  unfold textOr val
  rcases h with ⟨h, rfl⟩ | ⟨d, h⟩ <;> rw [h] <;> rfl

theorem named_name {get : Env} {k : Bytes} {word : String} {n : Nat} {s : Bytes} (h : Named get k word n s) : nameOr get k word n = s := by
  unfold nameOr
  rcases h with ⟨h, rfl⟩ | ⟨h, h2⟩
  · rw [holds_text h, if_pos rfl]
  · rw [holds_text h, if_neg h2]

theorem ip_version {get : Env} {k : Bytes} {v : Int} (h : Ip get k v) : ipVersion get k = (v, false) := by
  unfold ipVersion
  rcases h with ⟨h, rfl⟩ | ⟨t, d, h, hv⟩
  · rw [h]
  · rw [h]
    dsimp only
    have hp : Proper ipTable ∧ Counted ipTable := tables_proper _ (by simp)
    have hs : ∃ name, Stands ipTable name v ∧ Same t name := by
      rcases hv with ⟨h1, h2⟩ | ⟨h1, h2⟩ | ⟨h1, h2⟩
      · exact ⟨_, ⟨0, rfl, by rw [h2]; rfl⟩, h1⟩
      · exact ⟨_, ⟨1, rfl, by rw [h2]; rfl⟩, h1⟩
      · exact ⟨_, ⟨2, rfl, by rw [h2]; rfl⟩, h1⟩
    obtain ⟨name, h1, h2⟩ := hs
    obtain ⟨w, h3, _⟩ := enum_known ipTable hp.1 (by decide) t d name v h1 h2
    rw [h3]

theorem gives_val {get : Env} {k : Bytes} {dflt n : Int} (h : Gives get k dflt n) (hs : get k ≠ none) :
    ∃ ds, val get k = some ds ∧ intOf ds = n := by
  rcases h with ⟨h, _⟩ | ⟨ds, d, h, h1, h2, h3⟩
  · exact absurd h hs
  · refine ⟨ds, by unfold val; rw [h]; rfl, ?_⟩
    rw [h2]
    have := intOf_digits ds [] h1 (fun _ e => nomatch e) h3
    rwa [List.append_nil] at this

/-- C103: a server with host, port and number of connections is added with exactly the values which its options have, and
with the documented values where an option is not set. -/
theorem server_as_written (get : Env) (s : Server)
    (h1 : get (key "Server" s.id ".Host") ≠ none ∧ Holds get (key "Server" s.id ".Host") s.host)
    (h2 : get (key "Server" s.id ".Port") ≠ none ∧ Gives get (key "Server" s.id ".Port") 0 s.port)
    (h3 : get (key "Server" s.id ".Connections") ≠ none ∧ Gives get (key "Server" s.id ".Connections") 0 s.connections)
    (h4 : Says get (key "Server" s.id ".Active") true s.active) (h5 : Says get (key "Server" s.id ".JoinGroup") false s.joinGroup)
    (h6 : Says get (key "Server" s.id ".Optional") false s.optional) (h7 : Says get (key "Server" s.id ".Encryption") false s.tls)
    (h8 : Ip get (key "Server" s.id ".IpVersion") s.ipVersion) (h9 : Named get (key "Server" s.id ".Name") "server" s.id s.name)
    (h10 : Holds get (key "Server" s.id ".Username") s.user) (h11 : Holds get (key "Server" s.id ".Password") s.password)
    (h12 : Holds get (key "Server" s.id ".Cipher") s.cipher) (h13 : Gives get (key "Server" s.id ".Retention") 0 s.retention)
    (h14 : Gives get (key "Server" s.id ".Level") 0 s.level) (h15 : Gives get (key "Server" s.id ".Group") 0 s.group) :
    initServer get s.id = (some s, false) ∧ serverDefined get s.id = true := by
  have e1 : val get (key "Server" s.id ".Host") = some s.host := by
    rcases h1.2 with ⟨g, _⟩ | ⟨d, g⟩
    · exact absurd g h1.1
    · unfold val; rw [g]; rfl
  obtain ⟨p, e2, e2'⟩ := gives_val h2.2 h2.1
  obtain ⟨c, e3, e3'⟩ := gives_val h3.2 h3.1
  constructor
  · unfold initServer
    rw [e1, e2, e3, says_flag h4, says_flag h5, says_flag h6, says_flag h7, ip_version h8, named_name h9, holds_text h10, holds_text h11,
      holds_text h12, gives_number h13, gives_number h14, gives_number h15]
    dsimp only
    rw [e2', e3']
    rfl
  · unfold serverDefined
    rw [List.any_eq_true]
    exact ⟨".Host", by simp, by rw [e1]; rfl⟩

/-- C103: without host, port or number of connections the server is reported and not added. -/
theorem server_incomplete (get : Env) (n : Nat)
    (h : get (key "Server" n ".Host") = none ∨ get (key "Server" n ".Port") = none ∨ get (key "Server" n ".Connections") = none) :
    initServer get n = (none, true) := by
  have hv : ∀ k, get k = none → val get k = none := fun k h => by unfold val; rw [h]; rfl
  unfold initServer
  dsimp only
  rcases h with h | h | h
  · rw [hv _ h]
  · rw [hv _ h]
    cases val get (key "Server" n ".Host") <;> rfl
  · rw [hv _ h]
    cases val get (key "Server" n ".Host") <;> cases val get (key "Server" n ".Port") <;> rfl

/-- C103: a feed with an address is added with exactly the values which its options have. -/
theorem feed_as_written (get : Env) (f : Feed)
    (h1 : get (key "Feed" f.id ".URL") ≠ none ∧ Holds get (key "Feed" f.id ".URL") f.url)
    (h2 : Named get (key "Feed" f.id ".Name") "Feed" f.id f.name) (h3 : Gives get (key "Feed" f.id ".Interval") 0 f.interval)
    (h4 : Holds get (key "Feed" f.id ".Filter") f.filter) (h5 : Says get (key "Feed" f.id ".Backlog") true f.backlog)
    (h6 : Says get (key "Feed" f.id ".PauseNzb") false f.pauseNzb) (h7 : Holds get (key "Feed" f.id ".Category") f.category)
    (h8 : Gives get (key "Feed" f.id ".Priority") 0 f.priority) (h9 : Holds get (key "Feed" f.id ".Extensions") f.extensions) :
    initFeed get f.id = (some f, false) ∧ feedDefined get f.id = true := by
  have e1 : val get (key "Feed" f.id ".URL") = some f.url := by
    rcases h1.2 with ⟨g, _⟩ | ⟨d, g⟩
    · exact absurd g h1.1
    · unfold val; rw [g]; rfl
  constructor
  · unfold initFeed
    rw [e1, named_name h2, gives_number h3, holds_text h4, says_flag h5, says_flag h6, holds_text h7, gives_number h8, holds_text h9]
    rfl
  · unfold feedDefined
    rw [List.any_eq_true]
    exact ⟨".URL", by simp, by rw [e1]; rfl⟩

/-- C103: without an address the feed is reported and not added. -/
theorem feed_incomplete (get : Env) (n : Nat) (h : get (key "Feed" n ".URL") = none) : initFeed get n = (none, true) := by
  have : val get (key "Feed" n ".URL") = none := by unfold val; rw [h]; rfl
  unfold initFeed
  dsimp only
  rw [this]

/-- The directory of a category: not given, absolute, or relative to the option DestDir. -/
inductive DirOf (destDir : Bytes) : Bytes → Bytes → Prop where
  | none : DirOf destDir [] []
  | absolute (d : Bytes) (hd : d ≠ []) (hs : d.getLast? ≠ some 47) (hb : (92 : UInt8) ∉ d) : DirOf destDir (47 :: d) (47 :: d)
  | slash (d : Bytes) (hd : d ≠ []) (hb : (92 : UInt8) ∉ d) : DirOf destDir (47 :: d ++ [47]) (47 :: d)
  | relative (d : Bytes) (hd : d ≠ []) (h0 : d.head? ≠ some 47) (h1 : d[1]? ≠ some 58) (hs : d.getLast? ≠ some 47) (hb : (92 : UInt8) ∉ d)
      (hp : destDir ≠ [] ∧ destDir.getLast? ≠ some 47 ∧ (92 : UInt8) ∉ destDir) (hl : destDir.length + d.length < 1023) :
      DirOf destDir d (destDir ++ 47 :: d)

theorem normSep_id (s : Bytes) (h : (92 : UInt8) ∉ s) : normSep s = s := by
  unfold normSep
  induction s with
  | nil => rfl
  | cons c s ih =>
    rw [List.mem_cons, not_or] at h
    rw [List.map_cons, ih h.2, if_neg (fun e => h.1 e.symm)]

theorem dirOf_eq {destDir d r : Bytes} (h : DirOf destDir d r) : (if d = [] then [] else checkDir d destDir) = r := by
  cases h with
  | none => rfl
  | absolute d hd hs hb =>
    rw [if_neg (by simp)]
    unfold checkDir
    rw [normSep_id (47 :: d) (by simp [hb])]
    dsimp only
    rw [if_neg (c := (47 :: d).getLast? = some 47)]
    · rw [if_neg]
      unfold looksAbsolute; simp
    · cases d with
      | nil => exact absurd rfl hd
      | cons x l => rw [List.getLast?_cons_cons]; exact hs
  | slash d hd hb =>
    rw [if_neg (by simp)]
    unfold checkDir
    rw [normSep_id (47 :: d ++ [47]) (by simp [hb])]
    dsimp only
    have hl : (47 :: d ++ [47] : Bytes).getLast? = some 47 := by rw [List.getLast?_concat]
    rw [if_pos hl, List.dropLast_concat, if_neg]
    unfold looksAbsolute; simp
  | relative d hd h0 h1 hs hb hp hl =>
    rw [if_neg hd]
    unfold checkDir
    rw [normSep_id d hb]
    dsimp only
    rw [if_neg (c := d.getLast? = some 47) hs, if_pos]
    · rw [if_neg]
      · rw [List.take_of_length_le (by rw [List.length_append, List.length_cons]; omega)]
        refine normSep_id _ ?_
        simp [hb, hp.2.2]
      · rintro (g | g)
        · exact hp.2.1 g
        · exact hp.2.2 (List.mem_of_mem_getLast? g)
    · rw [Bool.and_eq_true, bne_iff_ne]
      refine ⟨?_, hp.1⟩
      unfold looksAbsolute
      have g : d.head? ≠ some 92 := fun g => hb (List.mem_of_mem_head? g)
      simp [h0, h1, g]

/-- C103: a category with a name is added with exactly the values which its options have; its aliases are the parts of the
list between commas and semicolons. -/
theorem category_as_written (get : Env) (destDir : Bytes) (n : Nat) (c : Category) (hn : c.name ≠ [])
    (h1 : Holds get (key "Category" n ".Name") c.name) (d : Bytes) (h2 : Holds get (key "Category" n ".DestDir") d)
    (h3 : DirOf destDir d c.destDir) (h4 : Says get (key "Category" n ".Unpack") true c.unpack)
    (h5 : Holds get (key "Category" n ".Extensions") c.extensions) (a : Bytes) (h6 : Holds get (key "Category" n ".Aliases") a)
    (h7 : c.aliases = Tokens.tokens (fun b => b == 59 || b == 44) a) :
    initCategory get destDir n = (some c, false) ∧ categoryDefined get n = true := by
  constructor
  · unfold initCategory
    rw [holds_text h1, holds_text h2, says_flag h4, holds_text h5, holds_text h6, if_neg hn]
    dsimp only
    rw [dirOf_eq h3]
    have : c.aliases = Tokens.tokens timeSep a := h7
    rw [← this]
  · unfold categoryDefined
    rw [List.any_eq_true]
    refine ⟨".Name", by simp, ?_⟩
    rcases h1 with ⟨_, h⟩ | ⟨d, h⟩
    · exact absurd h hn
    · unfold val; rw [h]; rfl

/-- C103: a category without a name is reported and not added. -/
theorem category_incomplete (get : Env) (destDir : Bytes) (n : Nat) (h : Holds get (key "Category" n ".Name") []) :
    initCategory get destDir n = (none, true) := by
  unfold initCategory
  rw [holds_text h, if_pos rfl]

/-! ### The numbers -/

theorem defined_end (s : Store) (word : String) (l : List String) :
    ∃ N, (∀ n, 1 ≤ n → n ≤ N → l.any (fun e => (val (envOf s) (key word n e)).isSome) = true) ∧
      l.any (fun e => (val (envOf s) (key word (N + 1) e)).isSome) = false := by
  obtain ⟨K, hK⟩ := envOf_length s
  refine first_missing (fun n => l.any (fun e => (val (envOf s) (key word n e)).isSome)) (10 ^ K) ?_
  intro n h
  obtain ⟨e, _, h⟩ := List.any_eq_true.mp h
  cases g : envOf s (key word n e) with
  | none => unfold val at h; rw [g] at h; exact nomatch h
  | some p => exact key_length _ _ n K (hK _ p g)

/-- C103: whatever the options are, the servers, categories and feeds which are read are those with the numbers from 1 to
some `N`, each once and in this order, and `N + 1` has none of the options which make a definition. -/
theorem sections_read (s : Store) (destDir : Bytes) :
    (∃ N, (∀ fuel > N, initServers (envOf s) fuel = (List.range' 1 N).map (initServer (envOf s))) ∧
      serverDefined (envOf s) (N + 1) = false) ∧
    (∃ N, (∀ fuel > N, initFeeds (envOf s) fuel = (List.range' 1 N).map (initFeed (envOf s))) ∧ feedDefined (envOf s) (N + 1) = false) ∧
    (∃ N, (∀ fuel > N, initCategories (envOf s) destDir fuel = (List.range' 1 N).map (initCategory (envOf s) destDir)) ∧
      categoryDefined (envOf s) (N + 1) = false) := by
  refine ⟨?_, ?_, ?_⟩
  · obtain ⟨N, h1, h2⟩ := defined_end s "Server" [".Active", ".Name", ".Level", ".Group", ".Host", ".Port", ".Optional", ".Username",
      ".Password", ".Connections", ".JoinGroup", ".Encryption", ".Cipher", ".Retention"]
    exact ⟨N, fun fuel hf => sections_spec (serverDefined (envOf s)) (initServer (envOf s)) N h1 h2 fuel hf, h2⟩
  · obtain ⟨N, h1, h2⟩ := defined_end s "Feed" [".Name", ".URL", ".Filter", ".Category", ".Backlog", ".PauseNzb", ".Interval", ".Priority",
      ".Extensions"]
    exact ⟨N, fun fuel hf => sections_spec (feedDefined (envOf s)) (initFeed (envOf s)) N h1 h2 fuel hf, h2⟩
  · obtain ⟨N, h1, h2⟩ := defined_end s "Category" [".Name", ".DestDir", ".Unpack", ".Extensions", ".Aliases"]
    exact ⟨N, fun fuel hf => sections_spec (categoryDefined (envOf s)) (initCategory (envOf s) destDir) N h1 h2 fuel hf, h2⟩

/-! ### The category of a name -/

/-- C103: a name stands for the first category of that name, in any case; only if there is none, for the first category
with an alias which matches it as a pattern, if aliases are asked for. -/
theorem findCategory_spec (cats : List Category) (name : Bytes) (al : Bool) (c : Category) :
    findCategory cats name al = some c ↔
      (∃ l r, cats = l ++ c :: r ∧ Same c.name name ∧ ∀ x ∈ l, ¬ Same x.name name) ∨
      (al = true ∧ (∀ x ∈ cats, ¬ Same x.name name) ∧ ∃ l r, cats = l ++ c :: r ∧ (∃ a ∈ c.aliases, WildMask.Glob a name) ∧
        ∀ x ∈ l, ∀ a ∈ x.aliases, ¬ WildMask.Glob a name) := by
  have f1 : cats.find? (fun c => Rpc.eqNoCase c.name name) = some c ↔ ∃ l r, cats = l ++ c :: r ∧ Same c.name name ∧ ∀ x ∈ l, ¬ Same x.name name := by
    rw [List.find?_eq_some_iff_append]
    simp only [same_iff, Bool.not_eq_true']
    constructor
    · rintro ⟨h, l, r, e, h2⟩
      refine ⟨l, r, e, h, ?_⟩
      intro x hx g
      have := h2 x hx
      rw [(same_iff _ _).2 g] at this
      exact nomatch this
    · rintro ⟨l, r, e, h, h2⟩
      refine ⟨h, l, r, e, ?_⟩
      intro x hx
      rw [← Bool.not_eq_true, same_iff]
      exact h2 x hx
  have any_iff : ∀ x : Category, x.aliases.any (fun a => WildMask.matches? a name) = true ↔ ∃ a ∈ x.aliases, WildMask.Glob a name := by
    intro x
    rw [List.any_eq_true]
    simp only [WildMask.matches_iff]
  have f2 : cats.find? (fun c => c.aliases.any (fun a => WildMask.matches? a name)) = some c ↔
      ∃ l r, cats = l ++ c :: r ∧ (∃ a ∈ c.aliases, WildMask.Glob a name) ∧ ∀ x ∈ l, ∀ a ∈ x.aliases, ¬ WildMask.Glob a name := by
    rw [List.find?_eq_some_iff_append, any_iff]
    constructor
    · rintro ⟨h, l, r, e, h2⟩
      refine ⟨l, r, e, h, ?_⟩
      intro x hx a ha g
      have := h2 x hx
      rw [(any_iff x).2 ⟨a, ha, g⟩] at this
      exact nomatch this
    · rintro ⟨l, r, e, h, h2⟩
      refine ⟨h, l, r, e, ?_⟩
      intro x hx
      rw [Bool.not_eq_true', ← Bool.not_eq_true, any_iff]
      rintro ⟨a, ha, g⟩
      exact h2 x hx a ha g
  unfold findCategory
  cases hf : cats.find? (fun c => Rpc.eqNoCase c.name name) with
  | some c' =>
    dsimp only
    rw [hf] at f1
    rw [f1]
    constructor
    · exact Or.inl
    · rintro (h | ⟨_, h, _⟩)
      · exact h
      · exfalso
        have h1 := List.find?_some hf
        exact h c' (List.mem_of_find?_eq_some hf) ((same_iff _ _).1 h1)
  | none =>
    dsimp only
    have hn : ∀ x ∈ cats, ¬ Same x.name name := by
      intro x hx g
      have := List.find?_eq_none.mp hf x hx
      exact this ((same_iff _ _).2 g)
    cases al with
    | true =>
      rw [if_pos rfl, f2]
      constructor
      · exact fun h => Or.inr ⟨rfl, hn, h⟩
      · rintro (⟨l, r, e, h, _⟩ | ⟨_, _, h⟩)
        · exact absurd h (hn c (by rw [e]; simp))
        · exact h
    | false =>
      rw [if_neg Bool.false_ne_true]
      constructor
      · exact fun h => nomatch h
      · rintro (⟨l, r, e, h, _⟩ | ⟨h, _⟩)
        · exact absurd h (hn c (by rw [e]; simp))
        · exact nomatch h

/-! ### Refuted -/

/-- C103, refuted: a section with only the option IpVersion does not count, so that all servers after it are ignored
without a message. -/
theorem ipVersion_is_gap (get : Env) (n : Nat) (h : ∀ e ∈ [".Active", ".Name", ".Level", ".Group", ".Host", ".Port", ".Optional",
    ".Username", ".Password", ".Connections", ".JoinGroup", ".Encryption", ".Cipher", ".Retention"], get (key "Server" n e) = none)
    (fuel : Nat) : sections (serverDefined get) (initServer get) fuel n = [] := by
  cases fuel with
  | zero => rfl
  | succ f =>
    rw [sections, if_neg]
    unfold serverDefined
    rw [Bool.not_eq_true, List.any_eq_false]
    intro e he
    unfold val
    rw [h e he]
    exact Bool.false_ne_true

/-- C103, refuted: a number of a server which is no number is not reported. Without digits it counts as 0, so that a server with
`Connections=eight` gets no connection and one with `Port=nntp` the port 0. -/
theorem bad_number_unnoticed (get : Env) (n : Nat) (host port conns : Bytes) (h1 : val get (key "Server" n ".Host") = some host)
    (h2 : val get (key "Server" n ".Port") = some port) (h3 : val get (key "Server" n ".Connections") = some conns)
    (hp : ∀ b, conns.head? = some b → isSpace b = false ∧ isDigit b = false ∧ b ≠ 45 ∧ b ≠ 43)
    (hf : Says get (key "Server" n ".Active") true true ∧ Says get (key "Server" n ".JoinGroup") false false ∧
      Says get (key "Server" n ".Optional") false false ∧ Says get (key "Server" n ".Encryption") false false ∧
      Ip get (key "Server" n ".IpVersion") 0) :
    ∃ s, initServer get n = (some s, false) ∧ s.connections = 0 ∧ s.active = true := by
  unfold initServer
  rw [h1, h2, h3, says_flag hf.1, says_flag hf.2.1, says_flag hf.2.2.1, says_flag hf.2.2.2.1, ip_version hf.2.2.2.2]
  exact ⟨_, rfl, intOf_other conns hp, rfl⟩

/-- C103, refuted: the root directory and a relative directory whose second character is a colon. -/
theorem checkDir_root (p : Bytes) (hp : p ≠ []) (hl : p.getLast? ≠ some 47) (hb : (92 : UInt8) ∉ p) (hn : p.length < 1023) :
    checkDir (lit "/") p = p ++ [47] := by
  unfold checkDir
  have e : normSep (lit "/") = lit "/" := by decide
  rw [e]
  dsimp only
  rw [if_pos (c := (lit "/").getLast? = some 47) (by decide)]
  have e2 : (lit "/").dropLast = [] := by decide
  rw [e2, if_pos, if_neg]
  · rw [List.take_of_length_le (by rw [List.length_append, List.length_singleton]; omega)]
    exact normSep_id _ (by simp [hb])
  · rintro (g | g)
    · exact hl g
    · exact hb (List.mem_of_mem_getLast? g)
  · rw [Bool.and_eq_true, bne_iff_ne]
    exact ⟨rfl, hp⟩

theorem checkDir_colon (c : UInt8) (d p : Bytes) (hc : c ≠ 92) (hb : (92 : UInt8) ∉ d) (hs : (58 :: d : Bytes).getLast? ≠ some 47) :
    checkDir (c :: 58 :: d) p = c :: 58 :: d := by
  unfold checkDir
  rw [normSep_id _ (by simp [hb, Ne.symm hc])]
  dsimp only
  rw [if_neg (c := (c :: 58 :: d).getLast? = some 47) (by rw [List.getLast?_cons_cons]; exact hs), if_neg]
  unfold looksAbsolute
  simp

/-! ### Words which are not known -/

/-- The option is set to something which is neither a word for yes nor one for no. -/
def Unknown (get : Env) (k : Bytes) : Prop := ∃ v d, get k = some (v, d) ∧ ∀ b, ∀ w ∈ words b, ¬ Same v (lit w)

theorem unknown_flag {get : Env} {k : Bytes} (h : Unknown get k) (dflt : Bool) : (flag get k dflt).2 = true := by
  obtain ⟨v, d, h, hv⟩ := h
  unfold flag
  rw [h]
  dsimp only
  have hp : Proper boolTable ∧ Counted boolTable := tables_proper _ (by simp)
  have hu : ∀ n ∈ boolTable.names, ¬ Same v n := by
    intro n hn
    obtain ⟨w, hw, rfl⟩ := List.mem_map.1 hn
    have : w ∈ words true ∨ w ∈ words false := by
      revert w
      decide
    rcases this with g | g
    · exact hv true w g
    · exact hv false w g
  obtain ⟨e, he, he', g, _⟩ := enumLoop_unknown boolTable hp.1 v d hu boolTable.count 0 0 (by decide) (by decide) (by intro i hi; omega)
  rw [show parseEnum boolTable v d = _ from g]

/-- C103: a word which is neither yes nor no is reported, whatever else the section says. -/
theorem unknown_word_reported (get : Env) (destDir : Bytes) (n : Nat) :
    (∀ e ∈ [".Active", ".JoinGroup", ".Optional", ".Encryption"], Unknown get (key "Server" n e) → (initServer get n).2 = true) ∧
    (∀ e ∈ [".Backlog", ".PauseNzb"], Unknown get (key "Feed" n e) → (initFeed get n).2 = true) ∧
    (Unknown get (key "Category" n ".Unpack") → (initCategory get destDir n).2 = true) := by
  refine ⟨fun e he h => ?_, fun e he h => ?_, fun h => ?_⟩
  · simp only [List.mem_cons, List.not_mem_nil, or_false] at he
    unfold initServer
    dsimp only
    split
    · rcases he with rfl | rfl | rfl | rfl <;> simp only [unknown_flag h, Bool.or_true, Bool.true_or]
    · rfl
  · simp only [List.mem_cons, List.not_mem_nil, or_false] at he
    unfold initFeed
    dsimp only
    split
    · rcases he with rfl | rfl <;> simp only [unknown_flag h, Bool.or_true, Bool.true_or]
    · rfl
  · unfold initCategory
    dsimp only
    split
    · rfl
    · exact unknown_flag h true

/-! ### Examples -/

def exStore : Store :=
  [("Server1.Host", "news.example.com"), ("Server1.Port", "563"), ("Server1.Connections", "8"), ("server1.encryption", "ON"),
   ("Server1.IpVersion", "IPv6"), ("Server2.IpVersion", "auto"), ("Server3.Host", "backup"), ("Category1.Name", "Movies"),
   ("Category1.Aliases", "film*, cinema"), ("Category1.DestDir", "mov"), ("Category2.Unpack", "no"), ("Feed1.URL", "http://x/y")].map
    (fun p => ⟨lit p.1, some (lit p.2), some (lit p.2)⟩)

def exServer : Server := ⟨1, true, lit "server1", lit "news.example.com", 563, 6, [], [], false, true, [], 8, 0, 0, 0, false⟩

def exCategory : Category := ⟨lit "Movies", lit "/dst/mov", true, [], [lit "film*", lit "cinema"]⟩

example : initServers (envOf exStore) 10 = [(some exServer, false)] := by decide +kernel
example : initCategories (envOf exStore) (lit "/dst") 10 = [(some exCategory, false), (none, true)] := by decide +kernel
example : (initFeeds (envOf exStore) 10).map (·.1.map (·.name)) = [some (lit "Feed1")] := by decide +kernel
example : findCategory [exCategory] (lit "Films") true = some exCategory ∧ findCategory [exCategory] (lit "Films") false = none := by
  decide +kernel
example : Unknown (fun k => if k = key "Server" 1 ".Encryption" then some (lit "maybe", []) else none) (key "Server" 1 ".Encryption") :=
  ⟨lit "maybe", [], by decide +kernel, by decide +kernel⟩
example : DirOf (lit "/dst") (lit "mov") (lit "/dst/mov") :=
  .relative (lit "mov") (by decide) (by decide) (by decide) (by decide) (by decide) (by decide) (by decide)

example : Says (envOf exStore) (key "Server" 1 ".Encryption") false true ∧ Gives (envOf exStore) (key "Server" 1 ".Port") 0 563 ∧
    Holds (envOf exStore) (key "Server" 1 ".Host") (lit "news.example.com") ∧ Ip (envOf exStore) (key "Server" 1 ".IpVersion") 6 ∧
    Named (envOf exStore) (key "Server" 1 ".Name") "server" 1 (lit "server1") := by
  refine ⟨Or.inr ⟨lit "ON", lit "ON", by decide +kernel, "on", by decide, by decide⟩,
    Or.inr ⟨lit "563", lit "563", by decide +kernel, ⟨by decide, by decide⟩, by decide, by decide⟩,
    Or.inr ⟨lit "news.example.com", by decide +kernel⟩,
    Or.inr ⟨lit "IPv6", lit "IPv6", by decide +kernel, Or.inr (Or.inr ⟨by decide, rfl⟩)⟩,
    Or.inl ⟨Or.inl ⟨by decide +kernel, rfl⟩, by decide⟩⟩

end Verif.Section
