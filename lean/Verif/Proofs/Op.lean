import Verif.Proofs.PathSetter
import Verif.Proofs.UserSetters
import Verif.Proofs.HostSetters
import Verif.Proofs.AuthSetters
import Verif.Proofs.UrlSetter
import Verif.Model.Op

/-!
Every modifying call that is not on the list of defective ones has the effect `Op.Effect` describes.
-/

set_option linter.unusedSimpArgs false

namespace Url
open Spec

variable {env : Env} {st : St} {c : Components}

/-- the recorded host type after a call that produced `c'` -/
def HostAfter (op : Op) (c' : Components) (k k' : HostType) : Prop :=
  match op with
  | .set_encoded_url s => if s = [] then k' = k else HostKind c'.host k'
  | .set_host s => if s = [] then k' = k else PlainHost s c'.host k'
  | .set_encoded_host s => if s = [] then k' = k else HostKind c'.host k'
  | _ => k' = k

/-- the recorded counts after a call that produced `c'` -/
def CountsAfter (op : Op) (c' : Components) (st st' : St) : Prop :=
  match op with
  | .set_encoded_url s =>
    if s = [] then st'.pt.nseg = st.pt.nseg ∧ st'.pt.nparam = st.pt.nparam
    else st'.pt.nseg = (pathSegments c'.path).length ∧ st'.pt.nparam = paramCount c'.query
  | _ => st'.pt.nseg = st.pt.nseg ∧ st'.pt.nparam = st.pt.nparam

/-- The call writes a terminator of its own. -/
def Terminates (op : Op) : Prop := ∃ s, s ≠ [] ∧ op = .set_encoded_url s

/-- the state after a successful call -/
structure OpOk (env : Env) (op : Op) (st : St) (c' : Components) (st' : St) : Prop where
  rep : Rep env st' c'
  grow : Grow env c'.render.length st st'
  counts : CountsAfter op c' st st'
  host : HostAfter op c' st.pt.host st'.pt.host
  nul : Nul st' ↔ Terminates op ∨ Mended st st'
  own : st.buf.isSome = true → st'.buf.isSome = true

/-- What can come of a call. -/
inductive Outcome (env : Env) (op : Op) (st : St) (c : Components) : Out Unit → Prop
  | ret (c' : Components) (st' : St) : op.Effect c c' → Stores env st c'.render.length →
      OpOk env op st c' st' → Outcome env op st c (.ret () st')
  | full (c' : Components) (e : Exc) (st' : St) : op.Effect c c' → ¬ Stores env st c'.render.length →
      (e = .bad_alloc ∨ e = .too_large) → Same st st' → Outcome env op st c (.throw e st')
  | invalid : (¬ ∃ c', op.Effect c c') → Outcome env op st c (.throw .invalid_part st)

theorem Outcome.of_sets {op : Op} {c' : Components} {k out} (h : SetsTo env st c' k out) (he : op.Effect c c')
    (hk : HostAfter op c' st.pt.host k) (hc : ∀ st', st'.pt.nseg = st.pt.nseg → st'.pt.nparam = st.pt.nparam → CountsAfter op c' st st')
    (ht : ¬ Terminates op := by rintro ⟨_, h, e⟩; cases e; try exact h rfl) :
    Outcome env op st c out := by
  rcases h with ⟨hs, st', rfl, h⟩ | ⟨hs, e, st', rfl, h1, h2⟩
  · exact .ret c' st' he hs ⟨h.rep, h.grow, hc st' h.nseg h.nparam, h.host ▸ hk, by simp only [ht, false_or]; exact h.nul, h.own⟩
  · exact .full c' e st' he hs h1 h2

theorem Outcome.of_checked {op : Op} {v : Prop} {c' : Components} {k out} (h : Checked v env st c' k out)
    (he : v → op.Effect c c') (hn : ∀ c', op.Effect c c' → v)
    (hk : v → HostAfter op c' st.pt.host k) (hc : ∀ st', st'.pt.nseg = st.pt.nseg → st'.pt.nparam = st.pt.nparam → CountsAfter op c' st st')
    (ht : ¬ Terminates op := by rintro ⟨_, h, e⟩; cases e; try exact h rfl) :
    Outcome env op st c out := by
  rcases h with ⟨hv, h⟩ | ⟨hv, rfl⟩
  · exact of_sets h (he hv) (hk hv) hc ht
  · exact .invalid fun ⟨c', h⟩ => hv (hn c' h)

theorem withHost_host (c : Components) (s : Str) : (c.withHost s).host = s := rfl

theorem userinfoText_valid {u : Str × Option Str} {s : Str} (h : UserinfoText u s) : Escaped isUpperHex isUserinfo s := by
  obtain ⟨h1, h2, rfl⟩ := h
  have h1' := Escaped.mono (hex' := isUpperHex) (fun _ h => h) (ok' := isUserinfo) (forall_byte (by decide +kernel)) h1
  obtain ⟨u, _ | p⟩ := u
  · exact h1'
  · exact Escaped.append (Escaped.append h1' (.char (by decide) .nil)) (h2 p rfl)

theorem op_correct (h : Rep env st c) (op : Op) (hd : ¬ op.Defective c.auth.isSome c.userinfo.isSome) : Outcome env op st c (run op env st) := by
  cases op with
  | set_encoded_url s =>
    by_cases hs : s = []
    · subst hs
      exact .of_sets (base_clear_url h) (.inl ⟨rfl, rfl⟩) rfl fun _ h1 h2 => ⟨h1, h2⟩
    · by_cases hv : UriReference lib s
      · obtain ⟨c', hv, rfl⟩ := hv
        rcases base_set_url_of h hv hs with ⟨hs', st', e, h⟩ | ⟨hs', st', e, h2⟩
        · rw [run, e]
          refine .ret c' st' (.inr ⟨hs, hv, rfl⟩) hs' ⟨h.rep, h.grow, ?_, ?_, ⟨fun _ => .inl ⟨_, hs, rfl⟩, fun _ => h.nul⟩, fun _ => ?_⟩
          · rw [CountsAfter, if_neg hs]
            exact ⟨h.nseg, h.nparam⟩
          · rw [HostAfter, if_neg hs]; exact h.host
          · obtain ⟨b, hb, -⟩ := h.nul
            rw [hb]; rfl
        · rw [run, e]
          exact .full c' _ st' (.inr ⟨hs, hv, rfl⟩) hs' (.inl rfl) h2
      · rw [run, base_set_url_bad s hs hv]
        exact .invalid fun ⟨c', h⟩ => h.elim (fun h => hs h.1) fun h => hv ⟨c', h.2.1, h.2.2⟩
  | set_encoded_origin s =>
    by_cases hs : s = []
    · subst hs
      exact .of_sets (base_clear_origin h) (.inl ⟨rfl, rfl⟩) rfl fun _ h1 h2 => ⟨h1, h2⟩
    · have hd : ∃ sch a, OriginText sch a s := by
        apply Classical.byContradiction
        intro h
        exact hd ⟨hs, h⟩
      obtain ⟨sch, a, h1, h2, rfl⟩ := hd
      exact .of_sets (base_set_origin_of h h1 h2) (.inr ⟨sch, a, ⟨h1, h2, rfl⟩, rfl⟩) rfl fun _ h1 h2 => ⟨h1, h2⟩
  | set_scheme s => exact .of_checked (base_set_scheme h s) (fun h => ⟨h, rfl⟩) (fun _ h => h.1) (fun _ => rfl) fun _ h1 h2 => ⟨h1, h2⟩
  | set_encoded_authority s =>
    by_cases hs : s = []
    · subst hs
      exact .of_sets (base_clear_authority h) (.inl ⟨rfl, rfl⟩) rfl fun _ h1 h2 => ⟨h1, h2⟩
    · by_cases hv : ∃ a, IsAuth a s
      · obtain ⟨a, ha, rfl⟩ := hv
        exact .of_sets (base_set_authority_of h ha hs) (.inr ⟨hs, a, ⟨ha, rfl⟩, rfl⟩) rfl fun _ h1 h2 => ⟨h1, h2⟩
      · rw [run, base_set_authority_bad s hs hv]
        exact .invalid fun ⟨c', h⟩ => h.elim (fun h => hs h.1) fun ⟨_, a, h, _⟩ => hv ⟨a, h⟩
  | set_encoded_userinfo s =>
    by_cases hs : s = []
    · subst hs
      exact .of_sets (base_clear_userinfo h) (.inl ⟨rfl, rfl⟩) rfl fun _ h1 h2 => ⟨h1, h2⟩
    · have hv : ¬ Escaped isUpperHex isUserinfo s := fun h => hd ⟨hs, h⟩
      rw [run, base_set_userinfo_bad s hs hv]
      exact .invalid fun ⟨c', h⟩ => h.elim (fun h => hs h.1) fun ⟨_, u, h, _⟩ => hv (userinfoText_valid h)
  | set_userinfo_part s =>
    by_cases hs : s = []
    · subst hs
      exact .of_sets (base_clear_userinfo h) (.inl ⟨.inl rfl, rfl⟩) rfl fun _ h1 h2 => ⟨h1, h2⟩
    · have he : s.isEmpty = false := by simpa using hs
      obtain ⟨x, d, rfl⟩ : ∃ x d, s = x ++ [d] := ⟨s.dropLast, s.getLast hs, (List.dropLast_concat_getLast hs).symm⟩
      rw [run]
      unfold Base.set_userinfo_part
      simp only [he, Bool.false_eq_true, if_false]
      by_cases hat : d = c!"@"
      · subst hat
        rw [run_bind_ret (run_require (by simp))]
        simp only [List.length_append, List.length_singleton, Nat.add_sub_cancel, List.take_left]
        by_cases hx : x = []
        · subst hx
          exact .of_sets (base_clear_userinfo h) (.inl ⟨.inr rfl, rfl⟩) rfl fun _ h1 h2 => ⟨h1, h2⟩
        · have hv : ¬ Escaped isUpperHex isUserinfo x := fun h => hd ⟨x, rfl, hx, h⟩
          rw [base_set_userinfo_bad x hx hv]
          refine .invalid ?_
          rintro ⟨c', ⟨h | h, -⟩ | ⟨x', u, h1, h2, h3, -⟩⟩
          · simp at h
          · exact hx (by simpa using h)
          · obtain rfl := List.append_cancel_right h2
            exact hv (userinfoText_valid h3)
      · rw [run_bind_throw (run_require_false (by simpa using hat))]
        refine .invalid ?_
        rintro ⟨c', ⟨h | h, -⟩ | ⟨x', u, h1, h2, h3, -⟩⟩
        · simp at h
        · cases x with
          | nil => simp at h; exact hat h
          | cons a x => simp at h
        · have := congrArg List.getLast? h2
          simp at this
          exact hat this
  | set_user s =>
    by_cases hs : s = []
    · subst hs
      refine .of_sets (base_clear_user h ?_) rfl rfl fun _ h1 h2 => ⟨h1, h2⟩
      intro ha
      cases hu : c.userinfo with
      | none => exact absurd ⟨rfl, ha, by rw [hu]; rfl⟩ hd
      | some _ => rfl
    · exact .of_sets (base_set_user h s hs) (by simp [Op.Effect, hs]) rfl fun _ h1 h2 => ⟨h1, h2⟩
  | set_encoded_user s =>
    by_cases hs : s = []
    · subst hs
      refine .of_sets (base_clear_user h ?_) ⟨.nil, rfl⟩ rfl fun _ h1 h2 => ⟨h1, h2⟩
      intro ha
      cases hu : c.userinfo with
      | none => exact absurd ⟨rfl, ha, by rw [hu]; rfl⟩ hd
      | some _ => rfl
    · exact .of_checked (base_set_encoded_user h s hs) (fun h => ⟨h, by simp [hs]⟩) (fun _ h => h.1) (fun _ => rfl) fun _ h1 h2 => ⟨h1, h2⟩
  | set_password s =>
    by_cases hs : s = []
    · subst hs
      exact .of_sets (base_clear_password h) rfl rfl fun _ h1 h2 => ⟨h1, h2⟩
    · exact .of_sets (base_set_password h s hs) (by simp [Op.Effect, hs]) rfl fun _ h1 h2 => ⟨h1, h2⟩
  | set_encoded_password s =>
    by_cases hs : s = []
    · subst hs
      exact .of_sets (base_clear_password h) ⟨by simp, .nil, rfl⟩ rfl fun _ h1 h2 => ⟨h1, h2⟩
    · exact .of_checked (base_set_encoded_password h s hs) (fun h => ⟨h.1, h.2, by simp [hs]⟩) (fun _ h => ⟨h.1, h.2.1⟩) (fun _ => rfl) fun _ h1 h2 => ⟨h1, h2⟩
  | set_password_part s =>
    by_cases hs : s = []
    · subst hs
      exact .of_sets (base_clear_password h) (.inl ⟨rfl, rfl⟩) rfl fun _ h1 h2 => ⟨h1, h2⟩
    · refine .of_checked (base_set_password_part h s hs ?_) ?_ ?_ (fun _ => rfl) fun _ h1 h2 => ⟨h1, h2⟩
      · intro e
        cases ha : c.auth with
        | none => exact absurd ⟨e, by rw [ha]; rfl⟩ hd
        | some _ => rfl
      · rintro (rfl | ⟨d, p, rfl, h1, h2, h3⟩)
        · exact .inr (.inl ⟨rfl, rfl⟩)
        · exact .inr (.inr ⟨d, p, rfl, h1, h2, h3, rfl⟩)
      · rintro c' (⟨h, -⟩ | ⟨h, -⟩ | ⟨d, p, h1, h2, h3, h4, -⟩)
        · exact absurd h hs
        · exact .inl h
        · exact .inr ⟨d, p, h1, h2, h3, h4⟩
  | set_host s =>
    by_cases hs : s = []
    · subst hs
      exact .of_sets (base_clear_host h) (.inl ⟨rfl, rfl⟩) rfl fun _ h1 h2 => ⟨h1, h2⟩
    · obtain ⟨txt, k, hp, h⟩ := base_set_host h s hs
      refine .of_sets h (.inr ⟨hs, txt, k, hp, rfl⟩) ?_ fun _ h1 h2 => ⟨h1, h2⟩
      rw [HostAfter, if_neg hs]
      exact hp
  | set_encoded_host s =>
    by_cases hs : s = []
    · subst hs
      exact .of_sets (base_clear_host h) ⟨.inr .nil, rfl⟩ rfl fun _ h1 h2 => ⟨h1, h2⟩
    · obtain ⟨k, hk, h⟩ := base_set_encoded_host h s hs
      refine .of_checked h (fun h => ⟨h, by simp [hs]⟩) (fun _ h => h.1) ?_ fun _ h1 h2 => ⟨h1, h2⟩
      intro hv
      rw [HostAfter, if_neg hs]
      exact hk hv
  | set_port s =>
    by_cases hs : s = []
    · subst hs
      exact .of_sets (base_clear_port h) ⟨rfl, rfl⟩ rfl fun _ h1 h2 => ⟨h1, h2⟩
    · exact .of_checked (base_set_port h s hs) (fun h => ⟨h, by simp [hs]⟩) (fun _ h => h.1) (fun _ => rfl) fun _ h1 h2 => ⟨h1, h2⟩
  | set_port_number n =>
    obtain ⟨s, hd, h⟩ := base_set_port_number h n
    exact .of_sets h ⟨s, hd, rfl⟩ rfl fun _ h1 h2 => ⟨h1, h2⟩
  | set_port_part s =>
    by_cases hs : s = []
    · subst hs
      exact .of_sets (base_clear_port h) (.inl ⟨rfl, rfl⟩) rfl fun _ h1 h2 => ⟨h1, h2⟩
    · refine .of_checked (base_set_port_part h s hs ?_) ?_ ?_ (fun _ => rfl) fun _ h1 h2 => ⟨h1, h2⟩
      · intro e
        cases ha : c.auth with
        | none => exact absurd ⟨e, by rw [ha]; rfl⟩ hd
        | some _ => rfl
      · rintro ⟨p, rfl, hp⟩
        exact .inr ⟨p, rfl, hp, rfl⟩
      · rintro c' (⟨h, -⟩ | ⟨p, h, hp, -⟩)
        · exact absurd h hs
        · exact ⟨p, h, hp⟩
  | set_encoded_path s =>
    exact .of_checked (base_set_encoded_path h s) (fun h => ⟨h, rfl⟩) (fun _ h => h.1) (fun _ => rfl) fun _ h1 h2 => ⟨h1, h2⟩
  | set_query s => exact .of_sets (base_set_query h s) rfl rfl fun _ h1 h2 => ⟨h1, h2⟩
  | set_encoded_query s =>
    exact .of_checked (base_set_encoded_query h s) (fun h => ⟨h, rfl⟩) (fun _ h => h.1) (fun _ => rfl) fun _ h1 h2 => ⟨h1, h2⟩
  | set_query_part s =>
    refine .of_checked (base_set_query_part h s) ?_ ?_ (fun _ => rfl) fun _ h1 h2 => ⟨h1, h2⟩
    · rintro (rfl | ⟨q, rfl, hq⟩)
      · exact .inl ⟨rfl, rfl⟩
      · exact .inr ⟨q, rfl, hq, rfl⟩
    · rintro c' (⟨h, -⟩ | ⟨q, h, hq, -⟩)
      · exact .inl h
      · exact .inr ⟨q, h, hq⟩
  | set_fragment s => exact .of_sets (base_set_fragment h s) rfl rfl fun _ h1 h2 => ⟨h1, h2⟩
  | set_encoded_fragment s =>
    exact .of_checked (base_set_encoded_fragment h s) (fun h => ⟨h, rfl⟩) (fun _ h => h.1) (fun _ => rfl) fun _ h1 h2 => ⟨h1, h2⟩
  | set_fragment_part s =>
    refine .of_checked (base_set_fragment_part h s) ?_ ?_ (fun _ => rfl) fun _ h1 h2 => ⟨h1, h2⟩
    · rintro (rfl | ⟨q, rfl, hq⟩)
      · exact .inl ⟨rfl, rfl⟩
      · exact .inr ⟨q, rfl, hq, rfl⟩
    · rintro c' (⟨h, -⟩ | ⟨q, h, hq, -⟩)
      · exact .inl h
      · exact .inr ⟨q, h, hq⟩
  | normalize_scheme => exact .of_sets (base_normalize_scheme h) rfl rfl fun _ h1 h2 => ⟨h1, h2⟩
  | normalize => exact .of_sets (base_normalize_scheme h) rfl rfl fun _ h1 h2 => ⟨h1, h2⟩

end Url
