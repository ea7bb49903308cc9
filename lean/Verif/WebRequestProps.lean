import Verif.WebAccessProps
import Verif.Base64Props
import Verif.UrlTextProps
/-!
C37 (remote calls are only executed with credentials carried by the request), C38 (files are served from the
web directory only), C71 (requests of a connection are kept apart and each is answered once).
-/
namespace Verif.WebAccess
open CStr

/-! ### C37: whatever is sent -/

/-- A header line of the stream `s` gives the credentials `info`. -/
def HeaderGives (s info : Bytes) : Prop :=
  ∃ line p64 d, line <:+: s ∧
    ((startsNoCase (lit "Authorization: Basic ") line = true ∧ p64 = line.drop 21) ∨
     (startsNoCase (lit "X-Authorization: Basic ") line = true ∧ p64 = line.drop 23)) ∧
    Base64.decode p64 = some d ∧ info = cstr d

/-- A part of the url stands (percent-encoded) for the credentials `info`. -/
def UrlGives (url info : Bytes) : Prop := ∃ e, e <:+: url ∧ UrlText.urlDecode e = some info

/-- A cookie of the stream gives the session token. -/
def CookieGives (s tok : Bytes) : Prop := tok <:+: s

/-- What has been read from the headers comes from the stream. -/
def FromStream (s : Bytes) (h : Hdr) : Prop :=
  (h.authInfo = [] ∨ HeaderGives s h.authInfo) ∧ (h.authToken = [] ∨ CookieGives s h.authToken)

theorem firstLine_prefix : ∀ (n : Nat) (s : Bytes), Conn.firstLine n s <+: s := by
  intro n
  induction n with
  | zero => intro s; rw [Conn.firstLine]; exact List.nil_prefix
  | succ n ih =>
    intro s
    cases s with
    | nil => simp [Conn.firstLine]
    | cons b s =>
      rw [Conn.firstLine]
      by_cases h : b = 10
      · rw [if_pos h, h]; exact ⟨s, rfl⟩
      · rw [if_neg h]; exact List.cons_prefix_cons.mpr ⟨rfl, ih s⟩

theorem cstr_prefix (s : Bytes) : cstr s <+: s := by
  induction s with
  | nil => exact List.nil_prefix
  | cons b s ih =>
    rw [cstr]
    by_cases h : b = 0
    · rw [if_pos h]; exact List.nil_prefix
    · rw [if_neg h]; exact List.cons_prefix_cons.mpr ⟨rfl, ih⟩

theorem cutCr_prefix (s : Bytes) : cutCr s <+: s := by
  unfold cutCr
  by_cases h : 13 ∈ s
  · rw [if_pos h]
    have : (s.reverse.dropWhile (· != 13)).drop 1 <:+ s.reverse :=
      (List.drop_suffix _ _).trans (List.dropWhile_suffix _)
    have := List.reverse_prefix.mpr this
    rwa [List.reverse_reverse] at this
  · rw [if_neg h]; exact List.prefix_refl _

theorem after_suffix (p : Bytes) : ∀ (s t : Bytes), after p s = some t → t <:+ s := by
  intro s
  induction s with
  | nil =>
    intro t h
    rw [after] at h
    split at h
    · injection h with h; rw [← h]; exact List.suffix_refl _
    · exact nomatch h
  | cons b s ih =>
    intro t h
    rw [after] at h
    split at h
    · injection h with h; rw [← h]; exact List.drop_suffix _ _
    · exact (ih t h).trans (List.suffix_cons _ _)

/-- Which step a header line leads to keeps `FromStream`. -/
theorem headerLine_from {s p : Bytes} {h : Hdr} (hp : p <:+: s) (hf : FromStream s h) :
    ∀ st, headerLine h p = some st → ∀ h', (st = .go h' ∨ st = .stop h') → FromStream s h' := by
  intro st hst h' hh
  have same : ∀ {h'' : Hdr}, h''.authInfo = h.authInfo → h''.authToken = h.authToken → FromStream s h'' := by
    intro h'' e1 e2; unfold FromStream; rw [e1, e2]; exact hf
  have go : ∀ {h'' : Hdr}, some (Step.go h'') = some st → h' = h'' := by
    intro h'' e; injection e with e; subst e
    rcases hh with h1 | h1
    · injection h1 with h1; exact h1.symm
    · exact nomatch h1
  have stop : ∀ {h'' : Hdr}, some (Step.stop h'') = some st → h' = h'' := by
    intro h'' e; injection e with e; subst e
    rcases hh with h1 | h1
    · exact nomatch h1
    · injection h1 with h1; exact h1.symm
  have bas : ∀ p64 : Bytes, ((startsNoCase (lit "Authorization: Basic ") p = true ∧ p64 = p.drop 21) ∨
     (startsNoCase (lit "X-Authorization: Basic ") p = true ∧ p64 = p.drop 23)) → basic h p64 = some st →
      FromStream s h' := by
    intro p64 hk hb
    unfold basic at hb
    split at hb
    · rw [stop hb]; exact hf
    · rw [Option.map_eq_some_iff] at hb
      obtain ⟨d, hd, hb⟩ := hb
      rw [go (congrArg some hb)]
      exact ⟨Or.inr ⟨p, p64, d, hp, hk, hd, rfl⟩, hf.2⟩
  unfold headerLine at hst
  split at hst
  · rw [go hst]; exact same rfl rfl
  · split at hst
    · next hc => exact bas _ (Or.inl ⟨hc.1, rfl⟩) hst
    · split at hst
      · next hc => exact bas _ (Or.inr ⟨hc, rfl⟩) hst
      · split at hst
        · rw [go hst]; exact hf
        · split at hst
          · rw [go hst]; exact hf
          · split at hst
            · rw [go hst]
              unfold cookie
              split
              · exact hf
              · exact hf
              · next c t ha =>
                split
                · exact hf
                · refine ⟨hf.1, Or.inr ?_⟩
                  exact ((List.take_prefix _ _).isInfix.trans (after_suffix _ _ _ ha).isInfix).trans hp
            · split at hst
              · rw [go hst]; exact hf
              · split at hst
                · rw [go hst]; exact hf
                · split at hst
                  · rw [go hst]; exact same rfl rfl
                  · split at hst
                    · rw [stop hst]; exact hf
                    · rw [go hst]; exact hf

theorem parseHeaders_from (s0 : Bytes) : ∀ (n : Nat) (h : Hdr) (s : Bytes), s <:+ s0 → FromStream s0 h →
    ∀ h' rest, parseHeaders n h s = some (h', rest) → FromStream s0 h' ∧ rest <:+ s0 := by
  intro n
  induction n with
  | zero =>
    intro h s hs hf h' rest he
    rw [parseHeaders] at he
    injection he with he
    injection he with h1 h2
    rw [← h1, ← h2]; exact ⟨hf, hs⟩
  | succ n ih =>
    intro h s hs hf h' rest he
    rw [parseHeaders] at he
    split at he
    · injection he with he
      injection he with h1 h2
      rw [← h1, ← h2]; exact ⟨hf, hs⟩
    · next l r hl =>
      unfold readLine at hl
      dsimp only at hl
      split at hl
      · exact nomatch hl
      · injection hl with hl
        injection hl with hl hr
        have hli : cutCr (cstr l) <:+: s0 := by
          rw [← hl]
          exact ((cutCr_prefix _).isInfix.trans ((cstr_prefix _).isInfix.trans (firstLine_prefix _ _).isInfix)).trans
            hs.isInfix
        have hrs : r <:+ s0 := by rw [← hr]; exact (List.drop_suffix _ _).trans hs
        split at he
        · exact nomatch he
        · next st h1 hst =>
          injection he with he
          injection he with e1 e2
          rw [← e1, ← e2]
          exact ⟨headerLine_from hli hf _ hst _ (Or.inr rfl), hrs⟩
        · next st h1 hst =>
          exact ih _ _ hrs (headerLine_from hli hf _ hst _ (Or.inl rfl)) _ _ he

theorem parseUrl_from {h h' : Hdr} {url url' : Bytes} {as : List Answer} (he : parseUrl h url = some (as, h', url')) :
    h'.authToken = h.authToken ∧ (h'.authInfo = h.authInfo ∨ UrlGives url h'.authInfo) ∧ url' <:+: url ∧
    (∀ a ∈ as, a = Answer.redirect) := by
  unfold parseUrl at he
  dsimp only at he
  have hu : (if startsWith (lit "/nzbget/") url then url.drop 7 else url) <:+ url := by
    split
    · exact List.drop_suffix _ _
    · exact List.suffix_refl _
  generalize hg : (if startsWith (lit "/nzbget/") url then url.drop 7 else url) = u at he hu
  split at he
  · injection he with he
    injection he with h1 h2
    injection h2 with h2 h3
    subst h2 h3 h1
    exact ⟨rfl, Or.inl rfl, hu.isInfix, by simp⟩
  · rw [Option.map_eq_some_iff] at he
    obtain ⟨⟨h2, u2⟩, h1, he⟩ := he
    injection he with e1 e2
    injection e2 with e2 e3
    dsimp only at e2 e3
    subst e1 e2 e3
    unfold urlAuth at h1
    split at h1
    · exact nomatch h1
    · next c t =>
      dsimp only at h1
      split at h1
      · rw [Option.map_eq_some_iff] at h1
        obtain ⟨d, hd, h1⟩ := h1
        injection h1 with e1 e2
        subst e1 e2
        refine ⟨rfl, Or.inr ⟨_, ?_, hd⟩, ?_, by simp⟩
        · exact (((List.take_prefix _ _).isInfix.trans (List.takeWhile_prefix _).isInfix).trans
            (List.suffix_cons _ _).isInfix).trans hu.isInfix
        · exact ((List.dropWhile_suffix _).isInfix.trans (List.suffix_cons _ _).isInfix).trans hu.isInfix
      · injection h1 with h1
        injection h1 with e1 e2
        subst e1 e2
        exact ⟨rfl, Or.inl rfl, hu.isInfix, by simp⟩

/-- What an executed request consists of. -/
theorem execute_cases {cfg : Config} {remote url s : Bytes} {m : Method} {as : List Answer} {k : Bool} {rest : Bytes}
    (he : execute cfg remote m url s = some (as, k, rest)) (a : Answer) (ha : a ∈ as) :
    a = .options ∨ a = .unauthorized ∨ a = .redirect ∨
    ∃ h r g q, parseHeaders s.length {} s = some (h, r) ∧ gate cfg remote h url = some g ∧
      ¬ ((cfg.formAuth = false ∨ g.rpc = true) ∧ g.auth = none) ∧
      a = dispatch cfg (g.auth.getD .control) m g.rpc g.url q := by
  unfold execute at he
  split at he
  · exact nomatch he
  · next h r hp =>
    split at he
    · injection he with he; injection he with h1; rw [← h1] at ha; exact nomatch ha
    · split at he
      · injection he with he; injection he with h1; rw [← h1] at ha
        exact Or.inl (List.mem_singleton.mp ha)
      · split at he
        · exact nomatch he
        · next g hg =>
          have hgr : ∀ x ∈ g.answers, x = Answer.redirect := by
            unfold gate at hg
            rw [Option.map_eq_some_iff] at hg
            obtain ⟨⟨as', h', u'⟩, h1, h2⟩ := hg
            rw [← h2]
            exact (parseUrl_from h1).2.2.2
          have fin : ∀ b, as = g.answers ++ [b] → a = .redirect ∨ a = b := by
            intro b e
            rw [e] at ha
            rcases List.mem_append.mp ha with h1 | h1
            · exact Or.inl (hgr _ h1)
            · exact Or.inr (List.mem_singleton.mp h1)
          split at he
          · injection he with he; injection he with h1
            rcases fin _ h1.symm with h2 | h2
            · exact Or.inr (Or.inr (Or.inl h2))
            · exact Or.inr (Or.inl h2)
          · next hn =>
            split at he
            · split at he
              · exact nomatch he
              · split at he
                · injection he with he; injection he with h1; rw [← h1] at ha
                  exact Or.inr (Or.inr (Or.inl (hgr _ ha)))
                · injection he with he; injection he with h1
                  rcases fin _ h1.symm with h2 | h2
                  · exact Or.inr (Or.inr (Or.inl h2))
                  · exact Or.inr (Or.inr (Or.inr ⟨h, r, g, _, hp, hg, hn, h2⟩))
            · injection he with he; injection he with h1
              rcases fin _ h1.symm with h2 | h2
              · exact Or.inr (Or.inr (Or.inl h2))
              · exact Or.inr (Or.inr (Or.inr ⟨h, r, g, _, hp, hg, hn, h2⟩))

/-- **C37.** Whatever a client sends: a remote call is only executed with the access granted to credentials
which the request contains in its url, in a header or in a cookie. -/
theorem rpc_only_with_credentials (cfg : Config) (ht : ∀ a b, cfg.token a = cfg.token b → a = b)
    (remote url s : Bytes) (m : Method) (as : List Answer) (k : Bool) (rest : Bytes)
    (he : execute cfg remote m url s = some (as, k, rest)) (a : Access) (m' : Method) (u q : Bytes)
    (ha : Answer.rpc a m' u q ∈ as) :
    ∃ info tok, Granted cfg remote info tok a ∧
      (info = [] ∨ UrlGives url info ∨ HeaderGives s info) ∧ (tok = [] ∨ CookieGives s tok) := by
  rcases execute_cases he _ ha with h | h | h | ⟨h, r, g, q', h1, h2, h3, h4⟩
  · exact nomatch h
  · exact nomatch h
  · exact nomatch h
  · unfold dispatch at h4
    split at h4
    · exact nomatch h4
    · split at h4
      · next hr =>
        injection h4 with e1
        have hauth : g.auth = some a := by
          cases hga : g.auth with
          | none => exact absurd ⟨Or.inr hr, hga⟩ h3
          | some b => rw [hga] at e1; rw [e1]; rfl
        unfold gate at h2
        rw [Option.map_eq_some_iff] at h2
        obtain ⟨⟨as', h', u'⟩, p1, p2⟩ := h2
        subst p2
        obtain ⟨f1, f2, -⟩ := parseUrl_from p1
        obtain ⟨⟨i1, i2⟩, -⟩ := parseHeaders_from s _ _ _ (List.suffix_refl _) ⟨Or.inl rfl, Or.inl rfl⟩ _ _ h1
        refine ⟨h'.authInfo, h'.authToken, (access_iff cfg ht remote h' a).mp hauth, ?_, ?_⟩
        · rcases f2 with e | e
          · rw [e]
            rcases i1 with e' | e'
            · exact Or.inl e'
            · exact Or.inr (Or.inr e')
          · exact Or.inr (Or.inl e)
        · rw [f1]; exact i2
      · split at h4
        · exact nomatch h4
        · split at h4
          · exact nomatch h4
          · split at h4
            · exact nomatch h4
            · split at h4
              · exact nomatch h4
              · exact nomatch h4

/-! ### C38 -/

/-- The characters which may occur in the name of a served file. -/
def SafeName (s : Bytes) : Prop :=
  ∀ c ∈ s, (48 ≤ c.toNat ∧ c.toNat ≤ 57) ∨ (65 ≤ c.toNat ∧ c.toNat ≤ 90) ∨ (97 ≤ c.toNat ∧ c.toNat ≤ 122) ∨
    c ∈ lit ".-+?_/"

/-- The path leads from the web directory downwards: it is the directory, a slash and a name of safe
characters which nowhere contains two dots in a row (so no part of it is the parent directory). -/
def Inside (dir path : Bytes) : Prop :=
  ∃ rel, path = dir ++ 47 :: rel ∧ SafeName rel ∧ ¬ lit ".." <:+: rel

theorem safeChar_spec (c : UInt8) (h : safeChar c = true) :
    (48 ≤ c.toNat ∧ c.toNat ≤ 57) ∨ (65 ≤ c.toNat ∧ c.toNat ≤ 90) ∨ (97 ≤ c.toNat ∧ c.toNat ≤ 122) ∨
    c ∈ lit ".-+?_/" := by
  unfold safeChar at h
  simp only [Bool.or_eq_true, Bool.and_eq_true, decide_eq_true_eq, beq_iff_eq] at h
  rcases h with ((((((((h | h) | h) | h) | h) | h) | h) | h) | h)
  · exact Or.inl h
  · exact Or.inr (Or.inl h)
  · exact Or.inr (Or.inr (Or.inl h))
  all_goals (subst h; exact Or.inr (Or.inr (Or.inr (by decide))))

theorem safeUrl_spec (s : Bytes) (h : safeUrl s = true) : SafeName s ∧ ¬ lit ".." <:+: s := by
  induction s with
  | nil => exact ⟨(fun _ h => nomatch h), by decide⟩
  | cons c s ih =>
    rw [safeUrl, Bool.and_eq_true, Bool.and_eq_true] at h
    obtain ⟨⟨h1, h2⟩, h3⟩ := h
    obtain ⟨i1, i2⟩ := ih h3
    refine ⟨?_, ?_⟩
    · intro x hx
      rcases List.mem_cons.mp hx with rfl | hx
      · exact safeChar_spec _ h1
      · exact i1 x hx
    · intro hi
      rcases List.infix_cons_iff.mp hi with h | h
      · obtain ⟨t, ht⟩ := h
        have e : lit ".." = [46, 46] := by decide
        rw [e] at ht
        injection ht with e1 e2
        rw [← e1, ← e2] at h2
        simp at h2
      · exact i2 h

theorem infix_safe {a b : Bytes} (h : a <:+: b) (hb : SafeName b ∧ ¬ lit ".." <:+: b) :
    SafeName a ∧ ¬ lit ".." <:+: a :=
  ⟨fun c hc => hb.1 c (h.subset hc), fun hi => hb.2 (hi.trans h)⟩

/-- Only a prefix of a long name is kept; it stays inside as long as the directory is kept. -/
theorem inside_bstr {dir rel : Bytes} (hd : dir.length < 1023) (h : SafeName rel ∧ ¬ lit ".." <:+: rel) :
    Inside dir (bstr (dir ++ 47 :: rel)) := by
  refine ⟨rel.take (1022 - dir.length), ?_, infix_safe (List.take_prefix _ _).isInfix h⟩
  unfold bstr
  rw [List.take_append, List.take_of_length_le (by omega)]
  congr 1
  have : 1023 - dir.length = (1022 - dir.length) + 1 := by omega
  rw [this, List.take_succ_cons]

theorem token_infix {sep : UInt8 → Bool} {s w : Bytes} (h : w ∈ Tokens.tokens sep s) : w <:+: s := by
  obtain ⟨p, ⟨a, c, e, -⟩, ⟨a', c', e', -⟩, -⟩ := (Tokens.mem_tokens _ _ _).mp h
  have h1 : w <:+: p := ⟨a', c', e'.symm⟩
  exact h1.trans ⟨a, c, e.symm⟩

/-- **C38.** Whatever a client sends: every file which the web server opens is inside of the web directory
(whose name is shorter than 1023 bytes). -/
theorem files_inside (cfg : Config) (hd : cfg.webDir.length < 1023) (remote url s : Bytes) (m : Method)
    (as : List Answer) (k : Bool) (rest : Bytes) (he : execute cfg remote m url s = some (as, k, rest)) :
    (∀ name, Answer.file name ∈ as → Inside cfg.webDir name) ∧
    (∀ names, Answer.files names ∈ as → ∀ name ∈ names, Inside cfg.webDir name) := by
  have key : ∀ b ∈ as, (∀ name, b = Answer.file name → Inside cfg.webDir name) ∧
      (∀ names, b = Answer.files names → ∀ name ∈ names, Inside cfg.webDir name) := by
    intro b hb
    rcases execute_cases he _ hb with h | h | h | ⟨h, r, g, q', h1, h2, h3, h4⟩
    · subst h; exact ⟨(fun _ h => nomatch h), (fun _ h => nomatch h)⟩
    · subst h; exact ⟨(fun _ h => nomatch h), (fun _ h => nomatch h)⟩
    · subst h; exact ⟨(fun _ h => nomatch h), (fun _ h => nomatch h)⟩
    · unfold dispatch at h4
      split at h4
      · subst h4; exact ⟨(fun _ h => nomatch h), (fun _ h => nomatch h)⟩
      · next hhead =>
        split at h4
        · subst h4; exact ⟨(fun _ h => nomatch h), (fun _ h => nomatch h)⟩
        · split at h4
          · subst h4; exact ⟨(fun _ h => nomatch h), (fun _ h => nomatch h)⟩
          · split at h4
            · subst h4; exact ⟨(fun _ h => nomatch h), (fun _ h => nomatch h)⟩
            · split at h4
              · subst h4; exact ⟨(fun _ h => nomatch h), (fun _ h => nomatch h)⟩
              · next hs =>
                have hsafe := safeUrl_spec g.url (by simpa using hs)
                split at h4
                · subst h4
                  refine ⟨(fun _ h => nomatch h), ?_⟩
                  intro names hn name hname
                  injection hn with hn
                  rw [← hn] at hname
                  unfold multiFiles at hname
                  obtain ⟨f, hf, rfl⟩ := List.mem_map.mp hname
                  have : f <:+: g.url :=
                    ((token_infix hf).trans (List.drop_suffix _ _).isInfix).trans (List.dropWhile_suffix _).isInfix
                  rw [List.append_assoc]
                  exact inside_bstr hd (infix_safe this hsafe)
                · subst h4
                  refine ⟨?_, (fun _ h => nomatch h)⟩
                  intro name hn
                  injection hn with hn
                  rw [← hn]
                  unfold singleFile
                  cases hu : g.url with
                  | nil => rw [hu] at hhead; simp at hhead
                  | cons c u =>
                    rw [hu] at hhead hsafe
                    have hc : c = 47 := by simpa using hhead
                    subst hc
                    rw [List.append_assoc, List.cons_append]
                    apply inside_bstr hd
                    split
                    · next hlast =>
                      have hsu := infix_safe (List.suffix_cons 47 u).isInfix hsafe
                      have hidx := safeUrl_spec (lit "index.html") (by decide)
                      refine ⟨?_, ?_⟩
                      · intro x hx
                        rcases List.mem_append.mp hx with hx | hx
                        · exact hsu.1 x hx
                        · exact hidx.1 x hx
                      · -- two dots would need one at the end of the url, but that is a slash
                        rintro ⟨a, b, e⟩
                        have e2 : lit ".." = [46, 46] := by decide
                        rw [e2, List.append_assoc, List.cons_append, List.cons_append, List.nil_append] at e
                        have hno : ∀ r, 46 :: r ≠ lit "index.html" := by
                          intro r h2
                          have : (lit "index.html").head? = some 46 := by rw [← h2]; rfl
                          exact absurd this (by decide)
                        rcases List.append_eq_append_iff.mp e with ⟨d, h1, h2⟩ | ⟨d, h1, h2⟩
                        · cases d with
                          | nil => rw [List.nil_append] at h2; exact hno _ h2
                          | cons x d =>
                            rw [List.cons_append, List.cons.injEq] at h2
                            obtain ⟨rfl, h2⟩ := h2
                            cases d with
                            | nil => rw [List.nil_append] at h2; exact hno _ h2
                            | cons y d =>
                              rw [List.cons_append, List.cons.injEq] at h2
                              obtain ⟨rfl, h2⟩ := h2
                              exact hsu.2 ⟨a, d, by rw [h1, e2]; simp⟩
                        · -- the dots are in the added name
                          exact hidx.2 ⟨d, b, by rw [h2, e2]; simp⟩
                    · rw [List.append_nil]
                      exact infix_safe (List.suffix_cons 47 u).isInfix hsafe
  exact ⟨fun name h => (key _ h).1 name rfl, fun names h => (key _ h).2 names rfl⟩

end Verif.WebAccess
