import Verif.Props.Lens

/-!
C63: which characters occur in a url, and where.
-/

set_option linter.unusedSimpArgs false
set_option autoImplicit false

namespace Url.Props
open Url Spec

variable {env : Env} {st st' : St}

/-- `gen-delims = ":" / "/" / "?" / "#" / "[" / "]" / "@"` -/
def isGenDelim (c : Byte) : Bool := b!":/?#[]@".contains c

/-- the characters of a URI, apart from `%` -/
def isUriChar (c : Byte) : Bool := isUnreserved c || isSubDelim c || isGenDelim c

/-- A sequence of URI characters and escapes. -/
abbrev UriText (s : Str) : Prop := Escaped isUpperHex isUriChar s

theorem UriText.of {ok : Byte → Bool} {s : Str} (h : Escaped isUpperHex ok s)
    (h1 : ∀ n : Fin 256, ok (UInt8.ofNat n.val) = true → isUriChar (UInt8.ofNat n.val) = true) : UriText s :=
  Escaped.mono (fun _ h => h) (forall_byte (P := fun c => ok c = true → isUriChar c = true) h1) h

theorem UriText.all {ok : Byte → Bool} {s : Str} (h : s.all ok = true)
    (h1 : ∀ n : Fin 256, ok (UInt8.ofNat n.val) = true → isUriChar (UInt8.ofNat n.val) = true) : UriText s :=
  UriText.of (escaped_all h) h1

/-! ### the path -/

/-- Segments that are well formed, but for one of them (if the flag is set), which has any first character. -/
inductive Tame : Bool → List Str → Prop
  | nil {b : Bool} : Tame b []
  | well {b : Bool} {s : Str} {l : List Str} : Escaped isUpperHex isPchar s → Tame b l → Tame b (s :: l)
  | wild {w : Byte} {s : Str} {l : List Str} : Escaped isUpperHex isPchar s → Tame false l → Tame true ((w :: s) :: l)

theorem Tame.weaken {l : List Str} (h : Tame false l) : Tame true l := by
  generalize hb : false = b at h
  induction h with
  | nil => exact .nil
  | well h _ ih => exact .well h (ih hb)
  | wild h => cases hb

theorem Tame.all {b : Bool} {l : List Str} (h : ∀ s ∈ l, Escaped isUpperHex isPchar s) : Tame b l := by
  induction l with
  | nil => exact .nil
  | cons s l ih => exact .well (h s (by simp)) (ih fun t ht => h t (by simp [ht]))

theorem Tame.cons_all {b : Bool} {l x : List Str} (h : Tame b l) (hx : ∀ s ∈ x, Escaped isUpperHex isPchar s) : Tame b (x ++ l) := by
  induction x with
  | nil => exact h
  | cons s x ih => exact .well (hx s (by simp)) (ih fun t ht => hx t (by simp [ht]))

theorem Tame.drop {b : Bool} {l : List Str} (h : Tame b l) (j : Nat) : Tame b (l.drop j) := by
  induction h generalizing j with
  | nil => simpa using Tame.nil
  | well h h' ih => cases j with
    | zero => exact .well h h'
    | succ j => exact ih j
  | wild h h' ih => cases j with
    | zero => exact .wild h h'
    | succ j => exact (ih j).weaken

theorem Tame.splice {b : Bool} {l x : List Str} (h : Tame b l) (hx : ∀ s ∈ x, Escaped isUpperHex isPchar s) {i j : Nat} (hij : i ≤ j) :
    Tame b (l.take i ++ x ++ l.drop j) := by
  induction h generalizing i j with
  | nil => simpa using Tame.all hx
  | @well b s l h h' ih => cases i with
    | zero => simpa using (Tame.drop (.well h h') j).cons_all hx
    | succ i => cases j with
      | zero => omega
      | succ j => exact .well h (ih (by omega))
  | @wild w s l h h' ih => cases i with
    | zero => simpa using (Tame.drop (.wild h h') j).cons_all hx
    | succ i => cases j with
      | zero => omega
      | succ j => exact .wild h (ih (by omega))

/-- URI text with at most one other byte in it (if the flag is set) -/
def Loose (b : Bool) (s : Str) : Prop := ∃ x w y, s = x ++ w ++ y ∧ w.length ≤ 1 ∧ (b = false → w = []) ∧ UriText x ∧ UriText y

theorem Loose.pre {b : Bool} {x s : Str} (hx : UriText x) (h : Loose b s) : Loose b (x ++ s) := by
  obtain ⟨a, w, c, rfl, h1, h2, h3, h4⟩ := h
  exact ⟨x ++ a, w, c, by simp, h1, h2, hx.append h3, h4⟩

theorem Loose.uri {s : Str} (h : Loose false s) : UriText s := by
  obtain ⟨a, w, c, rfl, h1, h2, h3, h4⟩ := h
  rw [h2 rfl, List.append_nil]
  exact h3.append h4

theorem pchar_uri {s : Str} (h : Escaped isUpperHex isPchar s) : UriText s := UriText.of h (by decide +kernel)

theorem slash_uri {s : Str} (h : UriText s) : UriText (c!"/" :: s) := .char (by decide) h

theorem Tame.loose {b : Bool} {l : List Str} (h : Tame b l) : Loose b (joined l) := by
  induction h with
  | nil => exact ⟨[], [], [], rfl, by simp, fun _ => rfl, .nil, .nil⟩
  | @well b s l h _ ih => exact Loose.pre (x := c!"/" :: s) (slash_uri (pchar_uri h)) ih
  | @wild w s l h _ ih => exact ⟨b!"/", [w], s ++ joined l, by simp [joined], by simp, nofun, slash_uri .nil, (pchar_uri h).append ih.uri⟩

theorem Tame.path {b : Bool} {p : Str} (h : Tame b (pathSegments p)) : Loose b p := by
  rcases joined_cases p with ⟨-, e⟩ | ⟨-, -, e⟩
  · rw [e]; exact h.loose
  · generalize pathSegments p = l at *
    cases h with
    | nil => cases e
    | @well _ s l h h' =>
      simp only [joined, List.flatMap_cons, List.cons_append, List.cons.injEq, true_and] at e
      rw [e]
      exact Loose.pre (pchar_uri h) h'.loose
    | @wild w s l h h' =>
      simp only [joined, List.flatMap_cons, List.cons_append, List.cons.injEq, true_and] at e
      rw [e]
      exact ⟨[], [w], s ++ joined l, by simp [joined], by simp, nofun, .nil, (pchar_uri h).append h'.loose.uri⟩

theorem Tame.well_all {l : List Str} (h : Tame false l) : ∀ s ∈ l, Escaped isUpperHex isPchar s := by
  generalize hb : false = b at h
  induction h with
  | nil => simp
  | well h _ ih =>
    intro s hs
    rcases List.mem_cons.1 hs with rfl | hs
    · exact h
    · exact ih hb s hs
  | wild => cases hb

/-- The path is such that at most one of its segments is not well formed, and that one only in its first character. -/
structure PathTame (p : Str) : Prop where
  tame : Tame true (pathSegments p)
  rootless : Rootless p → Tame false (pathSegments p)

theorem PathTame.all {p : Str} (h : ∀ s ∈ pathSegments p, Escaped isUpperHex isPchar s) : PathTame p := ⟨.all h, fun _ => .all h⟩

theorem pathOk_tame {a b f : Bool} {p : Str} (h : PathOk lib a b f p) : PathTame p := by
  rcases pathOk_shape h with ⟨segs, hs, rfl⟩ | ⟨_, ⟨rfl, -⟩ | ⟨w, s, t, hw, hs, ⟨segs, ht, rfl⟩, rfl⟩⟩ | ⟨s, t, h0, hs, ⟨segs, ht, rfl⟩, rfl⟩
  · exact .all (by rw [show pathSegments (segs.flatMap (c!"/" :: ·)) = segs from segments_slashed hs]; exact hs)
  · exact .all (by
      intro s hs
      have : s = [] := by simpa [pathSegments, splitAt] using hs
      rw [this]; exact .nil)
  · have e : pathSegments (c!"/" :: (w :: s) ++ slashed segs) = (w :: s) :: segs := by
      refine segments_absolute ?_ ht
      rw [List.all_cons, pchars_noslash hs, Bool.and_true]
      simpa using hw
    have e : pathSegments (c!"/" :: w :: s ++ segs.flatMap (c!"/" :: ·)) = (w :: s) :: segs := e
    refine ⟨?_, fun h => absurd rfl h.2⟩
    rw [e]
    exact .wild hs (.all ht)
  · refine .all ?_
    rw [show pathSegments (s ++ segs.flatMap (c!"/" :: ·)) = s :: segs from segments_rootless h0 (pchars_noslash hs) ht]
    intro x hx
    rcases List.mem_cons.1 hx with rfl | hx
    · exact hs
    · exact ht x hx

theorem text_well {e : SegOp} (hv : e.Valid) {s : Str} (h : e.text = some s) : Escaped isUpperHex isPchar s := by
  cases e <;> simp only [SegOp.text, Option.some.injEq, reduceCtorEq] at h
  all_goals subst h
  · exact pctEncode_escaped setOf_pchar _
  · exact hv
  · exact pctEncode_escaped setOf_pchar _
  · exact hv

theorem absPath_not_rootless (l : List Str) : ¬ Rootless (absPath l) := by
  rintro ⟨h1, h2⟩
  cases l with
  | nil => exact h1 rfl
  | cons s l => exact h2 rfl

theorem edit_tame {e : SegOp} {p : Str} (h : PathTame p) (hv : e.Valid) (hf : e.Fits (pathSegments p).length) : PathTame (editText e p) := by
  have hx : ∀ s ∈ e.text.toList, Escaped isUpperHex isPchar s := by
    intro s hs
    exact text_well hv (by simpa using hs)
  by_cases hg : e.Glues p
  · obtain ⟨h2, ht, hr⟩ := hg
    have h1 : e.cut.1 = 0 := by have := hf.1; omega
    obtain ⟨x, hx'⟩ := Option.ne_none_iff_exists'.1 ht
    have hxw := text_well hv hx'
    have hall := (h.rootless hr).well_all
    have hne := hr.1
    rcases joined_cases p with ⟨h3, -⟩ | ⟨-, -, h3⟩
    · rcases h3 with h3 | h3
      · exact absurd h3 hr.2
      · exact absurd h3 hne
    · rcases hl : pathSegments p with _ | ⟨s, segs⟩
      · rw [hl] at h3; cases h3
      · rw [hl] at h3 hall
        simp only [joined, List.flatMap_cons, List.cons_append, List.cons.injEq, true_and] at h3
        have hw := hxw.append (hall s (by simp))
        have e1 : editText e p = c!"/" :: (x ++ s) ++ slashed segs := by
          unfold editText
          rw [h1, h2, hx', List.take_zero, List.drop_zero, pieces_flatten, h3]
          simp [slashed]
        rw [e1]
        refine .all ?_
        rw [segments_absolute (pchars_noslash hw) (fun u hu => hall u (by simp [hu]))]
        intro u hu
        rcases List.mem_cons.1 hu with rfl | hu
        · exact hw
        · exact hall u (by simp [hu])
  · have e1 := segments_editText hv hf hg
    refine ⟨?_, fun hr => ?_⟩
    · rw [e1]
      exact h.tame.splice hx hf.1
    · rw [editText_eq hf hg] at hr
      unfold SegOp.newPath at hr
      simp only at hr
      split at hr
      · rename_i hk
        rw [e1]
        exact (h.rootless hk.1).splice hx hf.1
      · exact absurd hr (absPath_not_rootless _)

theorem effect_tame {c c' : Components} {op : Op} (h : PathTame c.path) (he : op.Effect c c') : PathTame c'.path := by
  cases op with
  | set_encoded_url s =>
    rcases he with ⟨-, rfl⟩ | ⟨-, hv, -⟩
    · exact .all (by simp [Components.empty, pathSegments])
    · exact pathOk_tame hv.2.2.1
  | set_encoded_path s =>
    obtain ⟨hv, rfl⟩ := he
    exact pathOk_tame hv
  | set_encoded_origin s => rcases he with ⟨-, rfl⟩ | ⟨_, _, -, rfl⟩ <;> exact h
  | set_scheme s => obtain ⟨-, rfl⟩ := he; exact h
  | set_encoded_authority s => rcases he with ⟨-, rfl⟩ | ⟨-, _, -, rfl⟩ <;> exact h
  | set_encoded_userinfo s => rcases he with ⟨-, rfl⟩ | ⟨-, _, -, rfl⟩ <;> exact h
  | set_userinfo_part s => rcases he with ⟨-, rfl⟩ | ⟨_, _, -, -, -, rfl⟩ <;> exact h
  | set_user s => obtain rfl := he; split <;> exact h
  | set_encoded_user s => obtain ⟨-, rfl⟩ := he; split <;> exact h
  | set_password s => obtain rfl := he; split <;> exact h
  | set_encoded_password s => obtain ⟨-, -, rfl⟩ := he; split <;> exact h
  | set_password_part s => rcases he with ⟨-, rfl⟩ | ⟨-, rfl⟩ | ⟨_, _, -, -, -, -, rfl⟩ <;> exact h
  | set_host s => rcases he with ⟨-, rfl⟩ | ⟨-, _, _, -, rfl⟩ <;> exact h
  | set_encoded_host s => obtain ⟨-, rfl⟩ := he; split <;> exact h
  | set_port s => obtain ⟨-, rfl⟩ := he; split <;> exact h
  | set_port_number n => obtain ⟨_, -, rfl⟩ := he; exact h
  | set_port_part s => rcases he with ⟨-, rfl⟩ | ⟨_, -, -, rfl⟩ <;> exact h
  | set_query s => obtain rfl := he; exact h
  | set_encoded_query s => obtain ⟨-, rfl⟩ := he; exact h
  | set_query_part s => rcases he with ⟨-, rfl⟩ | ⟨_, -, -, rfl⟩ <;> exact h
  | set_fragment s => obtain rfl := he; exact h
  | set_encoded_fragment s => obtain ⟨-, rfl⟩ := he; exact h
  | set_fragment_part s => rcases he with ⟨-, rfl⟩ | ⟨_, -, -, rfl⟩ <;> exact h
  | normalize_scheme => obtain rfl := he; exact h
  | normalize => obtain rfl := he; exact h

theorem Reach.tame (h : Reach env st) : ∃ c, Rep env st c ∧ PartsOk c ∧ PathTame c.path := by
  induction h with
  | @edit st st' e hr he hrun ih =>
    obtain ⟨c, hc, hp, hl⟩ := ih
    have hf : e.Fits (pathSegments c.path).length := by
      obtain ⟨p, h1, -, h3, -⟩ := he
      rw [(hc.reports env.dbg).path] at h1
      cases h1
      exact h3
    have ho := edit_outcome hc he
    revert ho
    generalize runSeg e env st = out at hrun
    intro ho
    cases ho with
    | fault f => rcases hrun with ⟨_, h⟩ | ⟨_, h⟩ <;> cases h
    | invalid =>
      rcases hrun with ⟨_, h⟩ | ⟨_, h⟩
      · cases h
      · cases h; exact ⟨c, hc, hp, hl⟩
    | full m =>
      rcases hrun with ⟨_, h⟩ | ⟨_, h⟩
      · cases h
      · cases h; exact ⟨c, Same.rep hc rfl, hp, hl⟩
    | ret it st1 hv hok =>
      rcases hrun with ⟨_, h⟩ | ⟨_, h⟩
      · cases h; exact ⟨_, hok.rep, ⟨hp.scheme, hp.auth, hp.query, hp.fragment⟩, edit_tame hl hv hf⟩
      · cases h
  | empty => exact ⟨_, Rep.empty, PartsOk.empty, .all (by simp [Components.empty, pathSegments])⟩
  | @call st st' op hr hd hrun ih =>
    obtain ⟨c, hc, hp, hl⟩ := ih
    have ho := op_correct hc op (callable hc hd)
    revert ho
    generalize run op env st = out at hrun
    intro ho
    cases ho with
    | ret c' st1 he hs hok =>
      rcases hrun with e | ⟨e, h⟩
      · cases e; exact ⟨c', hok.rep, effect_parts hp he, effect_tame hl he⟩
      · cases h
    | full c' e st1 he hs hx hsame =>
      rcases hrun with e | ⟨e, h⟩
      · cases e
      · cases h; exact ⟨c, hsame.rep hc, hp, hl⟩
    | invalid =>
      rcases hrun with e | ⟨e, h⟩
      · cases e
      · cases h; exact ⟨c, hc, hp, hl⟩

/-! ### what is around the path -/

/-- the characters of an address in brackets -/
def isAddr (c : Byte) : Bool := isHex c || b!":.".contains c

theorem addr_literal {x : Str} (h : lib.ipLiteral x) : x.all isAddr = true := by
  have octet : ∀ {s}, DecOctet s → s.all isAddr = true := fun h => all_mono (forall_byte (by decide +kernel)) (DecOctet.digits h).1
  have tail : ∀ {t}, DottedTail t → t.all isAddr = true := by
    rintro t ⟨b, c, d, hb, hc, hd, rfl⟩
    simp only [List.all_append, octet hb, octet hc, octet hd]
    decide
  have loose : ∀ {s}, LooseOctet s → s.all isAddr = true := fun h => all_mono (forall_byte (by decide +kernel)) h.2.2.1
  rcases h with h | h
  · obtain ⟨u, w, rfl, hu, hw⟩ := IPv6.shape (IPv6.mono upper_isHex (fun _ _ _ h => h) h)
    rw [List.all_append, all_mono (forall_byte (by decide +kernel)) hu]
    rcases hw with rfl | ⟨a, t, ha, ht, rfl⟩
    · rfl
    · rw [List.all_append, loose ha, tail ht]; rfl
  · rcases h with ⟨t, ht, rfl⟩ | ⟨k, y, z, t, _, hy, hz, ht, rfl⟩
    · rw [List.all_append, tail ht]; rfl
    · rw [List.all_append, List.all_append, List.all_append, tail ht, loose hz,
        all_mono (forall_byte (by decide +kernel)) (H16s.group (H16s.mono upper_isHex hy))]
      rfl

theorem host_uri {h : Str} (hh : Host lib h) : UriText h := by
  rcases hh with ⟨x, hx, rfl⟩ | hh
  · exact ((UriText.all (ok := isGenDelim) (by decide) (by decide +kernel)).append (UriText.all (addr_literal hx) (by decide +kernel))).append
      (UriText.all (ok := isGenDelim) (by decide) (by decide +kernel))
  · exact UriText.of hh (by decide +kernel)

theorem delim_uri {s : Str} (h : s.all isGenDelim = true) : UriText s := UriText.all h (by decide +kernel)

theorem scheme_uri {s : Str} (h : Scheme lib s) : UriText s := by
  obtain ⟨a, t, rfl, ha, ht⟩ := h
  exact .char (forall_byte (P := fun c => isAlpha c = true → isUriChar c = true) (by decide +kernel) a ha)
    (UriText.all ht (by decide +kernel))

theorem auth_uri {a : Auth} (h : a.Valid lib) : UriText a.render := by
  obtain ⟨ui, hh, pt⟩ := a
  obtain ⟨h1, h2, h3⟩ := h
  refine Escaped.append (Escaped.append ?_ (host_uri h2)) ?_
  · rcases ui with _ | ⟨u, _ | w⟩
    · exact .nil
    · exact (UriText.of (h1 u _ rfl).1 (by decide +kernel)).append (delim_uri (by decide))
    · exact (((UriText.of (h1 u _ rfl).1 (by decide +kernel)).append (delim_uri (by decide))).append
        (UriText.of ((h1 u _ rfl).2 w rfl) (by decide +kernel))).append (delim_uri (by decide))
  · rcases pt with _ | p
    · exact .nil
    · exact (delim_uri (by decide)).append (UriText.all (h3 p rfl) (by decide +kernel))

/-- what follows the path -/
def Components.rest (c : Components) : Str := withPrefix b!"?" c.query ++ withPrefix b!"#" c.fragment

theorem render_split (c : Components) : c.render = c.origin ++ c.path ++ Components.rest c := by
  rcases c with ⟨_ | sc, _ | a, pa, _ | q, _ | f⟩ <;> simp [Components.render, Components.origin, Components.rest, withPrefix, withSuffix]

theorem origin_uri {c : Components} (hp : PartsOk c) : UriText c.origin := by
  rcases c with ⟨sc, au, pa, q, f⟩
  refine Escaped.append ?_ ?_
  · rcases sc with _ | s
    · exact .nil
    · exact (scheme_uri (hp.scheme s rfl)).append (delim_uri (by decide))
  · rcases au with _ | a
    · exact .nil
    · exact (delim_uri (by decide)).append (auth_uri (hp.auth a rfl))

theorem rest_uri {c : Components} (hp : PartsOk c) : UriText (Components.rest c) := by
  rcases c with ⟨sc, au, pa, q, f⟩
  refine Escaped.append ?_ ?_
  · rcases q with _ | s
    · exact .nil
    · exact (delim_uri (by decide)).append (UriText.of (hp.query s rfl) (by decide +kernel))
  · rcases f with _ | s
    · exact .nil
    · exact (delim_uri (by decide)).append (UriText.of (hp.fragment s rfl) (by decide +kernel))

/-- C63: the text of a url consists of characters of URIs and escapes, except for at most one byte, which is in the path. -/
theorem C63_text (hr : Reach env st) (dbg : Bool) : ∃ pre x w y post,
    encoded_url (st.obj dbg) = .ok (pre ++ (x ++ w ++ y) ++ post) ∧ encoded_origin (st.obj dbg) = .ok pre ∧
    encoded_path (st.obj dbg) = .ok (x ++ w ++ y) ∧ w.length ≤ 1 ∧ UriText pre ∧ UriText x ∧ UriText y ∧ UriText post := by
  obtain ⟨c, hrep, hp, ht⟩ := Reach.tame hr
  have r := hrep.reports dbg
  obtain ⟨x, w, y, e, h1, -, h2, h3⟩ := ht.tame.path
  refine ⟨c.origin, x, w, y, Components.rest c, ?_, r.origin, ?_, h1, origin_uri hp, h2, h3, rest_uri hp⟩
  · rw [r.url, render_split, e]
  · rw [r.path, e]

/-- C63 for an accepted text: that byte is behind the first slash, and there is no authority. -/
theorem C63_view {s : Str} {v : View} (h : View.make s = .ret v) (dbg : Bool) : ∃ pre x w y post,
    s = pre ++ (x ++ w ++ y) ++ post ∧ encoded_origin (v.obj dbg) = .ok pre ∧ encoded_path (v.obj dbg) = .ok (x ++ w ++ y) ∧
    (w = [] ∨ w.length = 1 ∧ x = b!"/" ∧ has_authority (v.obj dbg) = false) ∧ UriText pre ∧ UriText x ∧ UriText y ∧ UriText post := by
  obtain ⟨c, hv, rfl, hvr⟩ := make_inv h
  have r := viewReports (hvr.obj dbg)
  have hp := PartsOk.of_valid hv
  have key : ∃ x w y, c.path = x ++ w ++ y ∧ (w = [] ∨ w.length = 1 ∧ x = b!"/" ∧ c.auth.isSome = false) ∧ UriText x ∧ UriText y := by
    have hl := (pathOk_tame hv.2.2.1)
    by_cases hT : Tame false (pathSegments c.path)
    · exact ⟨c.path, [], [], by simp, .inl rfl, hT.path.uri, .nil⟩
    · have h3 := hv.2.2.1
      have ha : c.auth.isSome = false := by
        rcases h4 : c.auth.isSome with _ | _
        · rfl
        · rw [h4] at h3
          obtain ⟨segs, hs, e⟩ : Slashed isUpperHex c.path := h3
          refine absurd (Tame.all ?_) hT
          rw [e, show pathSegments (segs.flatMap (c!"/" :: ·)) = segs from segments_slashed hs]
          exact hs
      rcases pathOk_shape h3 with ⟨segs, hs, e⟩ | ⟨_, ⟨e, -⟩ | ⟨w, s, t, hw, hs, ⟨segs, ht, rfl⟩, e⟩⟩ | ⟨s, t, h0, hs, ⟨segs, ht, rfl⟩, e⟩
      · refine absurd (Tame.all ?_) hT
        rw [e, show pathSegments (segs.flatMap (c!"/" :: ·)) = segs from segments_slashed hs]
        exact hs
      · refine absurd ?_ hT
        rw [e]
        exact .well .nil .nil
      · exact ⟨b!"/", [w], s ++ joined segs, by rw [e]; simp [joined], .inr ⟨rfl, rfl, ha⟩, delim_uri (by decide),
          (pchar_uri hs).append (Tame.loose (b := false) (.all ht)).uri⟩
      · refine absurd (Tame.all ?_) hT
        rw [e, show pathSegments (s ++ segs.flatMap (c!"/" :: ·)) = s :: segs from segments_rootless h0 (pchars_noslash hs) ht]
        intro x hx
        rcases List.mem_cons.1 hx with rfl | hx
        · exact hs
        · exact ht x hx
  obtain ⟨x, w, y, e, h1, h2, h3⟩ := key
  refine ⟨c.origin, x, w, y, Components.rest c, ?_, r.origin, ?_, ?_, origin_uri hp, h2, h3, rest_uri hp⟩
  · rw [render_split, e]
  · rw [r.path, e]
  · rw [r.has_authority]; exact h1

theorem uri_printable {s : Str} (h : UriText s) : ∀ b ∈ s, 33 ≤ b ∧ b ≤ 126 ∧ b ∉ b!"\"<>\\^`{|}" := by
  have key : s.all (fun b => 33 ≤ b && b ≤ 126 && !b!"\"<>\\^`{|}".contains b) = true :=
    Url.escaped_all (forall_byte (by decide +kernel)) (forall_byte (by decide +kernel)) (by decide) h
  intro b hb
  have := List.all_eq_true.1 key b hb
  simp only [Bool.and_eq_true, decide_eq_true_eq, Bool.not_eq_true', ← Bool.not_eq_true, List.contains_iff_mem] at this
  exact ⟨this.1.1, this.1.2, this.2⟩

/-- C63: no space, control character, quote or byte above 126 is in the text of a url, except for that one byte. -/
theorem C63_printable (hr : Reach env st) (dbg : Bool) : ∃ x w y, encoded_url (st.obj dbg) = .ok (x ++ w ++ y) ∧ w.length ≤ 1 ∧
    ∀ b ∈ x ++ y, 33 ≤ b ∧ b ≤ 126 ∧ b ∉ b!"\"<>\\^`{|}" := by
  obtain ⟨pre, x, w, y, post, h1, -, -, h4, h5, h6, h7, h8⟩ := C63_text hr dbg
  refine ⟨pre ++ x, w, y ++ post, by rw [h1]; simp, h4, ?_⟩
  exact uri_printable ((h5.append h6).append (h7.append h8))

theorem esc_free {ok : Byte → Bool} {s stop : Str} (h : Escaped isUpperHex ok s)
    (h1 : ∀ n : Fin 256, isHex (UInt8.ofNat n.val) = true → (!stop.contains (UInt8.ofNat n.val)) = true)
    (h2 : ∀ n : Fin 256, ok (UInt8.ofNat n.val) = true → (!stop.contains (UInt8.ofNat n.val)) = true)
    (h3 : (!stop.contains c!"%") = true) : ∀ d ∈ stop, d ∉ s := by
  intro d hd hm
  have := List.all_eq_true.1 (Escaped.free' upper_isHex h h1 h2 h3) d hm
  simp [List.contains_iff_mem, hd] at this

/-- The delimiters that cannot be in the components. -/
structure Delimited (sch user pw host port query frag : Str) : Prop where
  scheme : sch.all (fun c => isAlpha c || b!"+-.".contains c) = true
  user : ∀ d ∈ b!":@/?#[]", d ∉ user
  password : ∀ d ∈ b!"@/?#[]", d ∉ pw
  host : (∀ d ∈ b!":@/?#[]", d ∉ host) ∨ ∃ x, host = b!"[" ++ x ++ b!"]" ∧ x.all isAddr = true
  port : port.all isDigit = true
  query : ∀ d ∈ b!"#[]", d ∉ query
  fragment : ∀ d ∈ b!"#[]", d ∉ frag

theorem delimited {c : Components} (hp : PartsOk c) :
    Delimited (c.scheme.getD []) c.user c.password c.host (c.port.getD []) (c.query.getD []) (c.fragment.getD []) where
  scheme := by
    rcases h : c.scheme with _ | s
    · rfl
    · obtain ⟨a, t, rfl, ha, ht⟩ := hp.scheme s h
      show ((a :: t).all _) = true
      rw [List.all_cons, ha]
      exact ht
  user := esc_free hp.user (by decide +kernel) (by decide +kernel) (by decide)
  password := esc_free hp.password (by decide +kernel) (by decide +kernel) (by decide)
  host := by
    rcases hp.host with ⟨x, hx, e⟩ | h
    · exact .inr ⟨x, e, addr_literal hx⟩
    · exact .inl (esc_free h (by decide +kernel) (by decide +kernel) (by decide))
  port := by
    rcases c with ⟨sc, _ | ⟨u, hh, _ | pt⟩, pa, qu, f⟩
    · rfl
    · rfl
    · exact (hp.auth _ rfl).2.2 pt rfl
  query := by
    rcases h : c.query with _ | s
    · simp
    · exact esc_free (hp.query s h) (by decide +kernel) (by decide +kernel) (by decide)
  fragment := by
    rcases h : c.fragment with _ | s
    · simp
    · exact esc_free (hp.fragment s h) (by decide +kernel) (by decide +kernel) (by decide)

/-- C63: the components of a url contain no delimiters that would end them. -/
theorem C63_delimiters (hr : Reach env st) (dbg : Bool) : ∃ sch user pw host prt query frag,
    scheme (st.obj dbg) = .ok sch ∧ encoded_user (st.obj dbg) = .ok user ∧ Base.encoded_password (st.obj dbg) = .ok pw ∧
    encoded_host (st.obj dbg) = .ok host ∧ port (st.obj dbg) = .ok prt ∧ encoded_query (st.obj dbg) = .ok query ∧
    encoded_fragment (st.obj dbg) = .ok frag ∧ Delimited sch user pw host prt query frag := by
  obtain ⟨c, hrep, hp⟩ := hr.rep
  have r := hrep.reports dbg
  exact ⟨_, _, _, _, _, _, _, r.scheme, r.user, r.password, r.host, r.port, r.query, r.fragment, delimited hp⟩

/-- The same for a view. -/
theorem C63_delimiters_view {s : Str} {v : View} (h : View.make s = .ret v) (dbg : Bool) : ∃ sch user pw host prt query frag,
    scheme (v.obj dbg) = .ok sch ∧ encoded_user (v.obj dbg) = .ok user ∧ View.encoded_password (v.obj dbg) = .ok pw ∧
    encoded_host (v.obj dbg) = .ok host ∧ port (v.obj dbg) = .ok prt ∧ encoded_query (v.obj dbg) = .ok query ∧
    encoded_fragment (v.obj dbg) = .ok frag ∧ Delimited sch user pw host prt query frag := by
  obtain ⟨c, hv, rfl, hvr⟩ := make_inv h
  have r := viewReports (hvr.obj dbg)
  exact ⟨_, _, _, _, _, _, _, r.scheme, r.user, r.password, r.host, r.port, r.query, r.fragment, delimited (.of_valid hv)⟩

/-- C63 is false for that one byte: it can be any byte but a slash. -/
theorem C63_any_false (b : Byte) (hb : b ≠ c!"/") : ∃ v, View.make [c!"/", b] = .ret v ∧ encoded_path (v.obj true) = .ok [c!"/", b] := by
  obtain ⟨v, h1, h2⟩ := make_of (c := ⟨none, none, [c!"/", b], none, none⟩)
    ⟨by simp, by simp, .inr (.inl (.inr ⟨b, [], [], hb, .nil, ⟨[], by simp, rfl⟩, rfl⟩)), by simp, by simp⟩
  exact ⟨v, h1, (viewReports (h2.obj true)).path⟩

/-- the text after an edit -/
def textAfter (out : Out SegIt) : Option Str :=
  match out with
  | .ret _ st => (encoded_url (st.obj true)).toOption
  | _ => none

/-- It moves along with the segments, and it can stand behind an authority. -/
theorem C63_moved_false :
    textAfter (runSeg (.insert 0 b!"x") env1 (afterRelease [.set_encoded_url ([c!"/", 10] ++ b!"/b"), .set_encoded_host b!"h"])) =
      some (b!"//h/x/" ++ [10] ++ b!"/b") := by decide +kernel

example : Reach env0 sampleSt := sampleSt_reach

example : ∃ v, View.make b!"//[::1]/?a" = .ret v ∧ encoded_host (v.obj true) = .ok b!"[::1]" := ⟨_, rfl, by decide +kernel⟩

end Url.Props
