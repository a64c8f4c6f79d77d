import Verif.Proofs.Rfc

/-!
Properties of parsing: C01 - C08, C14, C41 and C45 for `url_view`.

`View.make s` is the constructor `url_view(s)`; `v.obj dbg` is what the accessors of the view see, in a
build with (`dbg = true`) or without assertions.
-/

set_option linter.unusedSimpArgs false

namespace Url.Props
open Url Spec

/-- The URL accepted in the examples below. -/
def sample : Str := b!"http://us%20er:p:w@h%41.x:80/a//b;c?k=v&l#f%2F"

/-- The components of `sample`. -/
def sampleC : Components :=
  { scheme := some b!"http"
    auth := some { userinfo := some (b!"us%20er", some b!"p:w"), host := b!"h%41.x", port := some b!"80" }
    path := b!"/a//b;c"
    query := some b!"k=v&l"
    fragment := some b!"f%2F" }

/-! ### C01 -/

/-- C01: the constructor accepts exactly the library's dialect of the URI-reference grammar. -/
theorem C01_accepts_iff (s : Str) : (∃ v, View.make s = .ret v) ↔ UriReference lib s := by
  constructor
  · rintro ⟨v, h⟩
    obtain ⟨c, hc, e, _⟩ := make_inv h
    exact ⟨c, hc, e⟩
  · rintro ⟨c, hc, rfl⟩
    obtain ⟨v, h, _⟩ := make_of hc
    exact ⟨v, h⟩

/-- C01: every other string is rejected with the documented exception. -/
theorem C01_rejects (s : Str) (h : ¬ UriReference lib s) : View.make s = .throw .invalid_part := by
  rw [make_eq]
  split
  · rfl
  · rename_i he
    exact absurd ((parse_url_iff s).1 (by simpa using he)) h

example : UriReference lib sample := (parse_url_iff _).1 (by decide +kernel)
example : ¬ UriReference lib b!"http://[::1" := fun h => absurd ((parse_url_iff _).2 h) (by decide +kernel)

/-! ### C02 -/

/-- The substring of `s` between the offsets `i` and `i + 1`. -/
def rawPart (v : View) (i : Nat) : Str := (v.s.drop (v.pt.off i)).take (v.pt.off (i + 1) - v.pt.off i)

theorem get_raw {o : Obj} {s x : Str} {i : Nat} (hm : o.mem = s.map some) (h : o.get i = .ok x) :
    x = (s.drop (o.pt.off i)).take (o.pt.off (i + 1) - o.pt.off i) := by
  unfold Obj.get Obj.get2 Obj.read at h
  split at h
  · split at h
    · rename_i h0
      rw [h0]
      simpa using h.symm
    · split at h
      · rw [hm, ← List.map_drop, ← List.map_take, mapM_some] at h
        simpa using h.symm
      · simp at h
  · simp at h

theorem eight {L : List Str} (h : L.length = 8) :
    L.getD 0 [] ++ L.getD 1 [] ++ L.getD 2 [] ++ L.getD 3 [] ++ L.getD 4 [] ++ L.getD 5 [] ++ L.getD 6 [] ++
      L.getD 7 [] = L.flatten := by
  match L, h with
  | [a, b, c, d, e, f, g, h], _ => simp

/-- C02: the offsets start at 0, do not decrease and end at the length of the input; the eight
substrings are the components with their delimiters, and their concatenation is the input. -/
theorem C02_lossless {s : Str} {v : View} (h : View.make s = .ret v) :
    v.s = s ∧ v.pt.off 0 = 0 ∧ (∀ i, i < 8 → v.pt.off i ≤ v.pt.off (i + 1)) ∧ v.pt.off 8 = s.length ∧
    rawPart v 0 ++ rawPart v 1 ++ rawPart v 2 ++ rawPart v 3 ++ rawPart v 4 ++ rawPart v 5 ++ rawPart v 6 ++
      rawPart v 7 = s ∧
    (rawPart v 0 = [] ∨ ∃ x, rawPart v 0 = x ++ b!":") ∧
    (rawPart v 1 = [] ∧ rawPart v 2 = [] ∧ rawPart v 3 = [] ∧ rawPart v 4 = [] ∨
      ∃ x, rawPart v 1 = b!"//" ++ x ∧
        (rawPart v 2 = [] ∧ x = [] ∨ rawPart v 2 = b!"@" ∨ ∃ p, rawPart v 2 = b!":" ++ p ++ b!"@")) ∧
    (rawPart v 4 = [] ∨ ∃ x, rawPart v 4 = b!":" ++ x) ∧
    (rawPart v 6 = [] ∨ ∃ x, rawPart v 6 = b!"?" ++ x) ∧
    (rawPart v 7 = [] ∨ ∃ x, rawPart v 7 = b!"#" ++ x) := by
  obtain ⟨c, hc, rfl, r⟩ := make_inv h
  have rep := (r.obj true).rep
  have hp : ∀ i, rawPart v i = (compParts c).getD i [] := by
    intro i
    have h1 := (r.obj true).get i
    exact (get_raw rfl h1).symm
  have hflat := compParts_flatten c
  refine ⟨r.s, by rw [show v.pt.off 0 = plen (compParts c) 0 from rep 0]; simp, ?_, ?_, ?_, ?_, ?_, ?_, ?_, ?_⟩
  · intro i _
    have h1 : v.pt.off i = plen (compParts c) i := rep i
    have h2 : v.pt.off (i + 1) = plen (compParts c) (i + 1) := rep (i + 1)
    have := plen_mono (compParts c) (b := i) (e := i + 1) (by omega)
    omega
  · have h1 : v.pt.off 8 = plen (compParts c) 8 := rep 8
    rw [h1, plen_of_le (by rw [compParts_length]; omega), hflat]
  · simp only [hp]
    rw [← hflat]
    exact eight (compParts_length c)
  all_goals
    simp only [hp]
    clear hp rep r h hc hflat
    obtain ⟨s, a, p, q, f⟩ := c
  · cases s <;> simp [compParts, schemeText]
  · rcases a with _ | ⟨_ | ⟨u, _ | pw⟩, hh, pp⟩ <;>
      simp [compParts, authTexts, authParts, userParts, portText]
  · rcases a with _ | ⟨_ | ⟨u, _ | pw⟩, hh, _ | pp⟩ <;>
      simp [compParts, authTexts, authParts, userParts, portText]
  · rcases a with _ | ⟨_ | ⟨u, _ | pw⟩, hh, pp⟩ <;> cases q <;>
      simp [compParts, authTexts, authParts, userParts, queryText]
  · rcases a with _ | ⟨_ | ⟨u, _ | pw⟩, hh, pp⟩ <;> cases f <;>
      simp [compParts, authTexts, authParts, userParts, fragText]

example : ∃ v, View.make sample = .ret v ∧ rawPart v 1 = b!"//us%20er" ∧ rawPart v 6 = b!"?k=v&l" := by
  refine ⟨_, rfl, ?_, ?_⟩ <;> decide +kernel

/-! ### C03, C45 -/

/-- Every accessor of a view returns what the components prescribe. -/
structure ViewReports (o : Obj) (c : Components) : Prop where
  url : encoded_url o = .ok c.render
  size : size o = c.render.length
  origin : encoded_origin o = .ok c.origin
  scheme : scheme o = .ok (c.scheme.getD [])
  has_authority : has_authority o = c.auth.isSome
  authority : encoded_authority o = .ok c.authority
  has_userinfo : View.has_userinfo o = .ok c.userinfo.isSome
  userinfo : View.encoded_userinfo o = .ok (userinfoText c.userinfo)
  userinfo_part : userinfo_part o = .ok (withSuffix b!"@" (c.userinfo.map fun u => userinfoText (some u)))
  user : encoded_user o = .ok c.user
  password : View.encoded_password o = .ok c.password
  host : encoded_host o = .ok c.host
  host_and_port : encoded_host_and_port o = .ok (c.host ++ withPrefix b!":" c.port)
  port : port o = .ok (c.port.getD [])
  port_part : port_part o = .ok (withPrefix b!":" c.port)
  path : encoded_path o = .ok c.path
  query : encoded_query o = .ok (c.query.getD [])
  query_part : query_part o = .ok (withPrefix b!"?" c.query)
  fragment : encoded_fragment o = .ok (c.fragment.getD [])
  fragment_part : fragment_part o = .ok (withPrefix b!"#" c.fragment)

theorem viewReports {o : Obj} {c : Components} (h : ObjRep o (compParts c)) : ViewReports o c where
  url := acc_url h
  size := acc_size h
  origin := acc_origin h
  scheme := acc_scheme h
  has_authority := acc_has_authority h
  authority := acc_authority h
  has_userinfo := acc_view_has_userinfo h
  userinfo := acc_view_userinfo h
  userinfo_part := acc_userinfo_part h
  user := acc_user h
  password := acc_view_password h
  host := acc_host h
  host_and_port := acc_host_and_port h
  port := acc_port h
  port_part := acc_port_part h
  path := acc_path h
  query := acc_query h
  query_part := acc_query_part h
  fragment := acc_fragment h
  fragment_part := acc_fragment_part h

/-- C03: a string assembled from valid components is accepted, and every accessor returns the
component it names. -/
theorem C03_components {c : Components} (hc : c.Valid lib) (dbg : Bool) :
    ∃ v, View.make c.render = .ret v ∧ ViewReports (v.obj dbg) c ∧
      v.pt.nseg = (pathSegments c.path).length ∧
      v.pt.nparam = (match c.query with | none => 0 | some q => (libPairs q).length) ∧
      HostKind c.host (host_type (v.obj dbg)) := by
  obtain ⟨v, h, r⟩ := make_of hc
  refine ⟨v, h, viewReports (r.obj dbg), r.nseg, ?_, r.host⟩
  rw [r.nparam]
  cases c.query <;> rfl

/-- C03: no string has two valid decompositions. -/
theorem C03_unique {c c' : Components} (hc : c.Valid lib) (hc' : c'.Valid lib) (h : c.render = c'.render) :
    c = c' := decomposition_unique hc hc' h

/-- C03, C45: for every accepted string there is exactly one list of valid components that recompose to
it, and every accessor - single or joined - agrees with it. -/
theorem C45_accessors {s : Str} {v : View} (h : View.make s = .ret v) :
    ∃ c : Components, c.Valid lib ∧ c.render = s ∧ (∀ dbg, ViewReports (v.obj dbg) c) ∧
      ∀ c' : Components, c'.Valid lib → c'.render = s → c' = c := by
  obtain ⟨c, hc, rfl, r⟩ := make_inv h
  exact ⟨c, hc, rfl, fun dbg => viewReports (r.obj dbg), fun c' hc' e => decomposition_unique hc' hc e⟩

/-- The sample components are valid. -/
theorem sampleC_valid : sampleC.Valid lib := by
  have h : UriReference lib sample := (parse_url_iff _).1 (by decide +kernel)
  obtain ⟨c, hc, e⟩ := h
  -- the parser determines the offsets, hence the components
  obtain ⟨k, hat, _⟩ := parse_url_complete hc
  have hoff : ∀ i, plen (compParts c) i = (parse_url sample).pt.off i := fun i => by rw [← e]; exact (hat.rep i).symm
  have hs : ∀ i, i ≤ 8 → plen (compParts sampleC) i = (parse_url sample).pt.off i := by
    have : ∀ i : Fin 9, plen (compParts sampleC) i.val = (parse_url sample).pt.off i.val := by decide +kernel
    exact fun i hi => this ⟨i, by omega⟩
  have : compParts c = compParts sampleC := by
    apply parts_unique
    · rw [compParts_length, compParts_length]
    · rw [compParts_flatten, e]; decide +kernel
    · intro i
      by_cases hi : i ≤ 8
      · rw [hoff, hs i hi]
      · rw [plen_of_le (by rw [compParts_length]; omega), plen_of_le (by rw [compParts_length]; omega),
          compParts_flatten, compParts_flatten, e]
        decide +kernel
  rw [← compParts_inj this]
  exact hc

example : sampleC.render = sample := by decide +kernel

/-! ### C04 -/

/-- C04 is false: the first character after a single leading slash is not validated. -/
theorem C04_false : (∃ v, View.make b!"/%zz" = .ret v) ∧ ¬ UriReference rfc b!"/%zz" := by
  refine ⟨⟨_, rfl⟩, fun h => ?_⟩
  have h := rfc_pctOk h
  cases h with
  | char _ h =>
    cases h with
    | char h _ => exact absurd h (by decide)
    | pct h _ _ => exact absurd h (by decide)

/-- C04, the part that holds: an accepted string is a URI-reference of RFC 3986 if its host, when it is
bracketed, is an IPv6 address of the RFC, and its path, when it starts with a slash and there is no
authority, is a `path-absolute` of the RFC. (Missing: exactly those two conditions.) -/
theorem C04_partial {s : Str} {v : View} (hv : View.make s = .ret v) {dbg : Bool} {h p : Str}
    (hh : encoded_host (v.obj dbg) = .ok h) (hp : encoded_path (v.obj dbg) = .ok p)
    (h6 : ∀ x, h = b!"[" ++ x ++ b!"]" → IPv6 isHex IPv4 x)
    (habs : has_authority (v.obj dbg) = false → p.head? = some c!"/" → PathAbsolute isHex p) :
    UriReference rfc s := by
  obtain ⟨c, hc, rfl, r⟩ := make_inv hv
  have R := viewReports (r.obj dbg)
  rw [R.host, Except.ok.injEq] at hh
  rw [R.path, Except.ok.injEq] at hp
  rw [R.has_authority] at habs
  subst hh hp
  refine ⟨c, Valid.mono hc lib_schemeChar_rfc upper_isHex ?_ ?_, rfl⟩
  · rintro x ⟨a, ha, e⟩ _
    refine .inl (h6 x ?_)
    rw [← e]
    simp [Components.host, ha]
  · intro hau hpa
    refine habs (by rw [hau]; rfl) ?_
    rcases hpa with ⟨e, _⟩ | ⟨_, _, _, _, _, _, e⟩ <;> rw [e] <;> rfl

/-- The conditions of `C04_partial` hold for the sample. -/
example : ∃ v, View.make sample = .ret v ∧ encoded_host (v.obj true) = .ok b!"h%41.x" ∧
    encoded_path (v.obj true) = .ok b!"/a//b;c" ∧ has_authority (v.obj true) = true :=
  ⟨_, rfl, by decide +kernel, by decide +kernel, by decide +kernel⟩

/-! ### C05 -/

/-- C05 is false: a digit in the scheme, a lower-case escape and IPvFuture are rejected. -/
theorem C05_false :
    (UriReference rfc b!"h2:" ∧ View.make b!"h2:" = .throw .invalid_part) ∧
    (UriReference rfc b!"%2f" ∧ View.make b!"%2f" = .throw .invalid_part) ∧
    (UriReference rfc b!"//[v1.a]" ∧ View.make b!"//[v1.a]" = .throw .invalid_part) ∧
    (UriReference rfc b!"/?q" ∧ ∃ v, View.make b!"/?q" = .ret v ∧ encoded_query (v.obj true) = .ok []) := by
  refine ⟨⟨⟨⟨some b!"h2", none, [], none, none⟩, ⟨?_, ?_, ?_, ?_, ?_⟩, rfl⟩, rfl⟩,
    ⟨⟨⟨none, none, b!"%2f", none, none⟩, ⟨?_, ?_, ?_, ?_, ?_⟩, rfl⟩, rfl⟩,
    ⟨⟨⟨none, some ⟨none, b!"[v1.a]", none⟩, [], none, none⟩, ⟨?_, ?_, ?_, ?_, ?_⟩, rfl⟩, rfl⟩,
    ⟨⟨⟨none, none, b!"/", some b!"q", none⟩, ⟨?_, ?_, ?_, ?_, ?_⟩, rfl⟩, ⟨_, rfl, by decide +kernel⟩⟩⟩
  all_goals try (intro x hx; simp at hx; done)
  · intro s hs; simp at hs; subst hs; exact ⟨c!"h", b!"2", rfl, by decide, by decide⟩
  · exact .inl rfl
  · exact .inr (.inr ⟨b!"%2f", [], by simp, .pct (by decide) (by decide) .nil, ⟨[], by simp, rfl⟩, rfl⟩)
  · intro a ha
    simp at ha
    subst ha
    refine ⟨by simp, .inl ⟨b!"v1.a", .inr ⟨c!"v", b!"1", b!"a", .inl rfl, by simp, by decide, by simp, by decide, rfl⟩, rfl⟩,
      by simp⟩
  · exact ⟨[], by simp, rfl⟩
  · exact .inr (.inl (.inl rfl))
  · intro q hq; simp at hq; subst hq; exact .char (by decide) .nil

/-- The RFC dialect restricted to what the library supports: no digits in schemes, upper-case hex
digits, no IPvFuture, no lone `/` before a query or fragment. -/
def rfcUpper : Dialect where
  schemeChar c := isAlpha c || b!"+-.".contains c
  hex := isUpperHex
  ipLiteral := IPv6 isUpperHex IPv4
  pathAbsolute p follows := PathAbsolute isUpperHex p ∧ (p = b!"/" → follows = false)

/-- `rfcUpper` is a part of the RFC dialect. -/
theorem rfcUpper_rfc {c : Components} (hc : c.Valid rfcUpper) : c.Valid rfc := by
  refine Valid.mono hc lib_schemeChar_rfc upper_isHex ?_ ?_
  · intro x _ h; exact .inl (IPv6.mono upper_isHex (fun _ _ _ h => h) h)
  · rintro _ ⟨h, _⟩
    rcases h with h | ⟨s, t, h1, h2, h3, h4⟩
    · exact .inl h
    · exact .inr ⟨s, t, h1, h2.mono upper_isHex (fun _ h => h), Slashed.mono upper_isHex h3, h4⟩

/-- C05, the part that holds: URI-references of the restricted dialect are accepted and the accessors
return their RFC components. (Missing: the four restrictions, each of which is necessary by
`C05_false`.) -/
theorem C05_partial {c : Components} (hc : c.Valid rfcUpper) (dbg : Bool) :
    ∃ v, View.make c.render = .ret v ∧ ViewReports (v.obj dbg) c := by
  have : c.Valid lib := by
    refine Valid.mono hc (fun _ h => h) (fun _ h => h) ?_ ?_
    · intro x _ h; exact .inl (IPv6.mono (fun _ h => h) (fun _ _ _ h => IPv4.loose h) h)
    · rintro _ ⟨h, h'⟩
      rcases h with h | ⟨s, t, h1, h2, h3, h4⟩
      · exact .inl ⟨h, h' h⟩
      · cases h2 with
        | nil => exact absurd rfl h1
        | @char d s hd hs =>
          exact .inr ⟨d, s, t, by rintro rfl; exact absurd hd (by decide), hs, h3, h4⟩
        | @pct a b s ha hb hs =>
          refine .inr ⟨c!"%", a :: b :: s, t, by decide, ?_, h3, h4⟩
          exact .char (hexPchar a ha) (.char (hexPchar b hb) hs)
  obtain ⟨v, h, r, _⟩ := C03_components this dbg
  exact ⟨v, h, r⟩
where
  hexPchar (c : Byte) : isUpperHex c = true → isPchar c = true := by
    revert c; exact forall_byte (by decide +kernel)

example : (⟨some b!"ws", some ⟨none, b!"[::F:1.2.3.4]", some []⟩, b!"/%2F", none, some []⟩ : Components).Valid rfcUpper := by
  refine ⟨?_, ?_, ⟨[b!"%2F"], ?_, rfl⟩, by simp, ?_⟩
  · intro s hs; simp at hs; subst hs; exact ⟨c!"w", b!"s", rfl, by decide, by decide⟩
  · intro a ha
    simp at ha
    subst ha
    refine ⟨by simp, .inl ⟨b!"::F:1.2.3.4", ?_, rfl⟩, by simp⟩
    refine .inr (.inl ⟨4, [], b!"F:", b!"1.2.3.4", by omega, .inl rfl, ?_, .inr ?_, rfl⟩)
    · exact ⟨b!"F", [], ⟨by simp, by simp, by decide⟩, rfl, rfl⟩
    · exact ⟨b!"1", b!"2", b!"3", b!"4", .inl ⟨_, by decide, rfl⟩, .inl ⟨_, by decide, rfl⟩,
        .inl ⟨_, by decide, rfl⟩, .inl ⟨_, by decide, rfl⟩, rfl⟩
  · intro s hs; simp at hs; subst hs; exact .pct (by decide) (by decide) .nil
  · intro s hs; simp at hs; subst hs; exact .nil

/-! ### C06 -/

/-- C06: the host type of a parsed URL is exact: `none` for an empty host, `ipv4` for exactly the
dotted quads of the RFC, `ipv6` for exactly the bracketed hosts, otherwise `name`. -/
theorem C06_host_type {s : Str} {v : View} (hv : View.make s = .ret v) {dbg : Bool} {h : Str}
    (hh : encoded_host (v.obj dbg) = .ok h) :
    (host_type (v.obj dbg) = .ipv4 ↔ IPv4 h) ∧
    (host_type (v.obj dbg) = .none ↔ h = []) ∧
    (host_type (v.obj dbg) = .ipv6 ↔ h.head? = some c!"[") ∧
    (host_type (v.obj dbg) = .name ↔ h ≠ [] ∧ ¬ IPv4 h ∧ h.head? ≠ some c!"[") := by
  obtain ⟨c, hc, rfl, r⟩ := make_inv hv
  rw [acc_host (r.obj dbg), Except.ok.injEq] at hh
  subst hh
  have hk : HostKind c.host (host_type (v.obj dbg)) := r.host
  have h4n : ¬ IPv4 [] := by rintro ⟨a, b, c, d, _, _, _, _, e⟩; simp at e
  have h4b : ∀ t, ¬ IPv4 (c!"[" :: t) := fun t h => by
    have := IPv4.digitDot h
    simp only [List.all_cons, Bool.and_eq_true] at this
    exact absurd this.1 (by decide)
  generalize host_type (v.obj dbg) = k at hk
  generalize c.host = h at hk
  cases hk with
  | none => simp [h4n]
  | ipv4 hi =>
    refine ⟨by simp [hi], ?_, ?_, by simp [hi]⟩
    · simp; rintro rfl; exact h4n hi
    · simp; intro e
      cases h with
      | nil => simp at e
      | cons d t => simp at e; subst e; exact h4b t hi
  | @ipv6 t => simp [h4b t]
  | name h1 h2 h3 => simp [h1, h2, h3]

example : ∃ v, View.make b!"//1.20.255.0" = .ret v ∧ host_type (v.obj true) = .ipv4 := ⟨_, rfl, by decide +kernel⟩
example : ∃ v, View.make b!"//1.20.256.0" = .ret v ∧ host_type (v.obj true) = .name := ⟨_, rfl, by decide +kernel⟩

/-! ### C07 -/

/-- C07 is false: `::.2.3.4` is accepted but is not an IPv6 address, and `::ab` is rejected. -/
theorem C07_false :
    ((∃ v, View.make b!"//[::.2.3.4]" = .ret v ∧ encoded_host (v.obj true) = .ok b!"[::.2.3.4]") ∧
      ¬ IPv6 isHex IPv4 b!"::.2.3.4") ∧
    (View.make b!"//[::ab]" = .throw .invalid_part ∧ IPv6 isHex IPv4 b!"::ab") := by
  refine ⟨⟨⟨_, rfl, by decide +kernel⟩, fun h => absurd (IPv6.noColonDot h) (by decide)⟩, rfl, ?_⟩
  exact .inr (.inr (.inl ⟨[], b!"ab", .inl rfl, ⟨by simp, by simp, by decide⟩, rfl⟩))

/-- C07, the exact language: the bracketed hosts of accepted URLs are the texts of the relaxed grammar. -/
theorem C07_sound_partial {s : Str} {v : View} (hv : View.make s = .ret v) {dbg : Bool} {t : Str}
    (hh : encoded_host (v.obj dbg) = .ok (c!"[" :: t)) :
    ∃ x, t = x ++ b!"]" ∧ (IPv6 isUpperHex LooseIPv4 x ∨ StrayTail x) ∧
      (c!"." ∉ x → IPv6 isHex IPv4 x) := by
  obtain ⟨c, hc, rfl, r⟩ := make_inv hv
  rw [acc_host (r.obj dbg), Except.ok.injEq] at hh
  unfold Components.host at hh
  cases ha : c.auth with
  | none => simp [ha] at hh
  | some a =>
    simp only [ha] at hh
    obtain ⟨_, h, _⟩ := hc.2.1 a ha
    rcases h with ⟨x, hx, e⟩ | h
    · rw [hh] at e
      simp only [List.cons_append, List.nil_append, List.append_assoc, List.cons.injEq, true_and] at e
      exact ⟨x, e, hx, fun hd => IPv6.mono upper_isHex (fun _ _ _ h => h) (ipLiteral_noDot hx hd)⟩
    · rw [hh] at h
      rcases escaped_head h with h | h <;> exact absurd h (by decide)

/-- C07, completeness for upper-case addresses: every IPv6 address of the RFC written with upper-case
digits is accepted as a host, whatever surrounds it. -/
theorem C07_complete_partial {x : Str} (hx : IPv6 isUpperHex IPv4 x) (dbg : Bool) :
    ∃ v, View.make (b!"//[" ++ x ++ b!"]") = .ret v ∧
      encoded_host (v.obj dbg) = .ok (b!"[" ++ x ++ b!"]") ∧ host_type (v.obj dbg) = .ipv6 := by
  have hc : (⟨none, some ⟨none, b!"[" ++ x ++ b!"]", none⟩, [], none, none⟩ : Components).Valid lib := by
    refine ⟨by simp, ?_, ⟨[], by simp, rfl⟩, by simp, by simp⟩
    intro a ha
    simp at ha
    subst ha
    exact ⟨by simp, .inl ⟨x, .inl (IPv6.mono (fun _ h => h) (fun _ _ _ h => IPv4.loose h) hx), by simp⟩, by simp⟩
  obtain ⟨v, h, r, _, _, hk⟩ := C03_components hc dbg
  refine ⟨v, by rw [← h]; congr 1; simp [Components.render, Auth.render], r.host, ?_⟩
  have e := (C06_host_type h (dbg := dbg) r.host).2.2.1
  exact e.2 rfl

/-! ### C08 -/

/-- C08: for every input the parser terminates with its pointer inside the input, without reading
outside it and without failing an assertion; the constructor returns or throws. -/
theorem C08_total (s : Str) :
    (parse_url s).flt = none ∧ (∃ x, s = x ++ (parse_url s).p) ∧
    (parse_origin s).flt = none ∧ (∃ x, s = x ++ (parse_origin s).p) ∧
    ((∃ v, View.make s = .ret v) ∨ View.make s = .throw .invalid_part) := by
  have g := good_url s
  have g' := good_origin s
  refine ⟨g.flt, ?_, g'.flt, ?_, ?_⟩
  · obtain ⟨x, hx⟩ := g.suf; exact ⟨x, hx.symm⟩
  · obtain ⟨x, hx⟩ := g'.suf; exact ⟨x, hx.symm⟩
  · rw [make_eq]
    split
    · exact .inr rfl
    · exact .inl ⟨_, rfl⟩

/-- C08 for the functions the setters call. -/
theorem C08_parts (s : Str) :
    (parse_authority (PS.init s)).flt = none ∧ (parse_userinfo (PS.init s)).flt = none ∧
    (parse_hostname (PS.init s)).flt = none ∧ (parse_ip_literal (PS.init s)).flt = none ∧
    (parse_path_abempty (PS.init s)).flt = none ∧ (parse_path_absolute (PS.init s)).flt = none ∧
    (parse_path_noscheme (PS.init s)).flt = none ∧ (parse_path_rootless (PS.init s)).flt = none := by
  have g := Good.init s
  exact ⟨(good_authority g).flt, (good_userinfo g).flt, (good_hostname g).flt, (good_ip_literal g).flt,
    (good_abempty g).flt, (good_absolute g).flt, (noscheme_eq ▸ good_first g _).flt,
    (rootless_eq ▸ good_first g _).flt⟩

/-! ### C14 -/

theorem decodeR_of {ok} (hok : ok c!"%" = false) {s : Str} (h : Escaped isUpperHex ok s) :
    ∃ d, decodeR s = .ok d ∧ Decoded s d := by
  obtain ⟨d, h1, h2⟩ := decodeRaw_decoded hok h
  exact ⟨d, by unfold decodeR; rw [decode_eq, h1], h2⟩

theorem decoded_self {s : Str} (h : s.all (· != c!"%")) : Decoded s s := by
  induction s with
  | nil => exact .nil
  | cons c t ih =>
    simp only [List.all_cons, Bool.and_eq_true, bne_iff_ne] at h
    exact .char h.1 (ih h.2)

theorem looseOctet_noPct {a : Str} (h : LooseOctet a) : a.all (· != c!"%") :=
  all_mono (fun c hc => (digitDot_facts c (by simp [isDigitDot, hc])).1) h.2.2.1

theorem dottedTail_noPct {a : Str} (h : DottedTail a) : a.all (· != c!"%") := by
  obtain ⟨b, c, d, hb, hc, hd, rfl⟩ := h
  have : ∀ {x}, DecOctet x → x.all (· != c!"%") := fun h =>
    all_mono (fun c hc => (digitDot_facts c (by simp [isDigitDot, hc])).1) (DecOctet.digits h).1
  simp only [List.all_append, this hb, this hc, this hd]
  decide

theorem lib_ipLiteral_noPct {x : Str} (h : lib.ipLiteral x) : x.all (· != c!"%") := by
  rcases h with h | h
  · have h := IPv6.mono (hex' := isHex) (v4' := LooseIPv4) upper_isHex (fun _ _ _ h => h) h
    obtain ⟨u, w, rfl, hu, hw⟩ := IPv6.shape h
    rw [List.all_append, Bool.and_eq_true]
    refine ⟨all_mono isGroup_noPct hu, ?_⟩
    rcases hw with rfl | ⟨a, t, ha, ht, rfl⟩
    · rfl
    · rw [List.all_append, looseOctet_noPct ha, dottedTail_noPct ht]; rfl
  · rcases h with ⟨t, ht, rfl⟩ | ⟨k, a, y, t, _, ha, hy, ht, rfl⟩
    · rw [List.all_append, dottedTail_noPct ht]; rfl
    · have := all_mono isGroup_noPct (H16s.group (H16s.mono (hex' := isHex) upper_isHex ha))
      simp only [List.all_append, this, looseOctet_noPct hy, dottedTail_noPct ht]
      decide

/-- C14 for the components (the path segments are in `Verif/Props/Segments.lean`): each decoding getter
of an accepted URL returns the percent-decoding of the encoded component, without a fault. -/
theorem C14_decoding {s : Str} {v : View} (hv : View.make s = .ret v) (dbg : Bool) :
    ∃ eu ep eh eq ef du dp dh dq df : Str,
      encoded_user (v.obj dbg) = .ok eu ∧ user (v.obj dbg) = .ok du ∧ Decoded eu du ∧
      View.encoded_password (v.obj dbg) = .ok ep ∧ View.password (v.obj dbg) = .ok dp ∧ Decoded ep dp ∧
      encoded_host (v.obj dbg) = .ok eh ∧ host (v.obj dbg) = .ok dh ∧ Decoded eh dh ∧
      encoded_query (v.obj dbg) = .ok eq ∧ query (v.obj dbg) = .ok dq ∧ Decoded eq dq ∧
      encoded_fragment (v.obj dbg) = .ok ef ∧ fragment (v.obj dbg) = .ok df ∧ Decoded ef df := by
  obtain ⟨c, hc, rfl, r⟩ := make_inv hv
  have R := viewReports (r.obj dbg)
  obtain ⟨v1, v2, v3, v4, v5⟩ := hc
  have hu : Escaped isUpperHex isRegName c.user := by
    unfold Components.user Components.userinfo
    cases ha : c.auth with
    | none => exact .nil
    | some a =>
      simp only [Option.bind_some]
      rcases hi : a.userinfo with _ | ⟨u, pw⟩
      · exact .nil
      · exact ((v2 a ha).1 u pw hi).1
  have hp : Escaped isUpperHex isUserinfo c.password := by
    unfold Components.password Components.userinfo
    cases ha : c.auth with
    | none => exact .nil
    | some a =>
      simp only [Option.bind_some]
      rcases hi : a.userinfo with _ | ⟨u, _ | pw⟩
      · exact .nil
      · exact .nil
      · exact ((v2 a ha).1 u _ hi).2 pw rfl
  have hq : Escaped isUpperHex isQueryFrag (c.query.getD []) := by
    cases hq : c.query with
    | none => exact .nil
    | some q => exact v4 q hq
  have hf : Escaped isUpperHex isQueryFrag (c.fragment.getD []) := by
    cases hq : c.fragment with
    | none => exact .nil
    | some q => exact v5 q hq
  obtain ⟨du, u1, u2⟩ := decodeR_of (by decide) hu
  obtain ⟨dp, p1, p2⟩ := decodeR_of (by decide) hp
  obtain ⟨dq, q1, q2⟩ := decodeR_of (by decide) hq
  obtain ⟨df, f1, f2⟩ := decodeR_of (by decide) hf
  have hh : ∃ dh, host (v.obj dbg) = .ok dh ∧ Decoded c.host dh := by
    have hhost : Host lib c.host := by
      unfold Components.host
      cases ha : c.auth with
      | none => exact .inr .nil
      | some a => exact (v2 a ha).2.1
    have hget : (v.obj dbg).get id_host = .ok c.host := R.host
    unfold host
    split
    · refine ⟨c.host, hget, ?_⟩
      rename_i hk
      have hk' : HostKind c.host v.pt.host := r.host
      have hk : v.pt.host ≠ .name := hk
      generalize v.pt.host = k at hk hk'
      rcases hhost with ⟨x, hx, e⟩ | hesc
      · refine decoded_self ?_
        rw [e]
        simp only [List.all_append, lib_ipLiteral_noPct hx]
        decide
      · generalize c.host = h at *
        cases hk' with
        | none => exact .nil
        | ipv4 h4 => exact decoded_self (all_mono (fun c h => (digitDot_facts c h).1) (IPv4.digitDot h4))
        | ipv6 => rcases escaped_head hesc with h | h <;> exact absurd h (by decide)
        | name => exact absurd rfl hk
    · rw [R.host]
      rename_i hk
      have hk' : HostKind c.host v.pt.host := r.host
      have hk : v.pt.host = .name := by simpa [View.obj] using hk
      rw [hk] at hk'
      rcases hhost with ⟨x, hx, e⟩ | hesc
      · rw [e] at hk'
        cases hk' with
        | name _ _ h => simp at h
      · exact decodeR_of (by decide) hesc
  obtain ⟨dh, h1, h2⟩ := hh
  refine ⟨_, _, _, _, _, du, dp, dh, dq, df, R.user, ?_, u2, R.password, ?_, p2, R.host, h1, h2, R.query, ?_, q2,
    R.fragment, ?_, f2⟩
  · unfold user; rw [R.user]; exact u1
  · unfold View.password; rw [R.password]; exact p1
  · unfold query; rw [R.query]; exact q1
  · unfold fragment; rw [R.fragment]; exact f1

example : ∃ v, View.make sample = .ret v ∧ user (v.obj true) = .ok b!"us er" ∧
    host (v.obj true) = .ok b!"hA.x" ∧ fragment (v.obj true) = .ok b!"f/" :=
  ⟨_, rfl, by decide +kernel, by decide +kernel, by decide +kernel⟩

/-! ### C41 -/

/-- C41 is false: the documentation of `has_authority` states that it is equivalent to
`! encoded_authority().empty()`; for `//` it is not. -/
theorem C41_false : ∃ v, View.make b!"//" = .ret v ∧ has_authority (v.obj true) = true ∧
    encoded_authority (v.obj true) = .ok [] := ⟨_, rfl, by decide +kernel, by decide +kernel⟩

/-- C41, the part that holds: a non-empty authority is reported; `has_userinfo` is equivalent to a
non-empty `userinfo_part`; and the documented equivalence holds unless the text is `//` followed by
nothing or a path, query or fragment. (Missing: the empty authority.) -/
theorem C41_partial {s : Str} {v : View} (hv : View.make s = .ret v) (dbg : Bool) :
    ∃ a ui, encoded_authority (v.obj dbg) = .ok a ∧ userinfo_part (v.obj dbg) = .ok ui ∧
      View.has_userinfo (v.obj dbg) = .ok (!ui.isEmpty) ∧
      (a ≠ [] → has_authority (v.obj dbg) = true) ∧
      (has_authority (v.obj dbg) = true → a = [] →
        ∃ t, encoded_origin (v.obj dbg) = .ok (t ++ b!"//")) := by
  obtain ⟨c, hc, rfl, r⟩ := make_inv hv
  have R := viewReports (r.obj dbg)
  refine ⟨_, _, R.authority, R.userinfo_part, ?_, ?_, ?_⟩
  · rw [R.has_userinfo]
    rcases c.userinfo with _ | ⟨u, pw⟩ <;> simp [withSuffix]
  · intro h
    rw [R.has_authority]
    unfold Components.authority at h
    cases ha : c.auth with
    | none => simp [ha] at h
    | some a => rfl
  · intro h1 h2
    rw [R.has_authority] at h1
    rw [R.origin]
    unfold Components.authority at h2
    unfold Components.origin
    cases ha : c.auth with
    | none => simp [ha] at h1
    | some a =>
      simp only [ha] at h2
      exact ⟨withSuffix b!":" c.scheme, by simp [h2, withPrefix]⟩

end Url.Props
