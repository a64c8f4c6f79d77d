import Verif.Proofs.UserSetters
import Verif.Proofs.Port

/-!
The setters of the host and the port.
-/

set_option linter.unusedSimpArgs false
attribute [-simp] List.length_flatten

namespace Url
open Spec

variable {env : Env} {st : St} {S X W t : _} {R : List (List Cell)} {c' : Components} {txt : Str} {n : Nat}

theorem ip_literal_noMatch_inv {s : Str} (h : (parse_ip_literal (PS.init s)).ec = some .no_match) :
    ∀ t, s ≠ c!"[" :: t := by
  rintro t rfl
  unfold parse_ip_literal at h
  simp only [PS.init, bne_self_eq_false, Bool.false_eq_true, if_false] at h
  revert h
  cases (parse_ip_v6 t).err
  · simp only [Bool.false_eq_true, if_false, Option.isSome_none]
    split
    · simp
    · split <;> simp
  · simp

theorem v4_head {s : Str} (h : IPv4 s) : s ≠ [] ∧ s.head? ≠ some c!"[" := by
  obtain ⟨a, b, c, d, ha, -, -, -, rfl⟩ := h
  rcases ha with ⟨x, h1, rfl⟩ | ⟨x, y, ⟨h1, h2⟩, -, rfl⟩ | ⟨x, y, -, -, rfl⟩ | ⟨x, y, -, -, rfl⟩ | ⟨x, -, rfl⟩ <;>
    simp
  · rintro rfl; revert h1; decide
  · rintro rfl; revert h2; decide

theorem plain_hostname_of (s : Str) : ∃ txt, PlainHost s txt (parse_plain_hostname s) ∧
    (parse_plain_hostname s ≠ .name → txt = s) ∧ (parse_plain_hostname s = .name → txt = pctEncode isRegName s) := by
  have hname : (¬ IPv4 s) → (¬ ∃ x, lib.ipLiteral x ∧ s = b!"[" ++ x ++ b!"]") → parse_plain_hostname s = .name →
      ∃ txt, PlainHost s txt (parse_plain_hostname s) ∧
    (parse_plain_hostname s ≠ .name → txt = s) ∧ (parse_plain_hostname s = .name → txt = pctEncode isRegName s) := by
    intro h1 h2 h3
    rw [h3]
    exact ⟨_, .name h1 h2, by simp, by simp⟩
  have hlit : ∀ x, lib.ipLiteral x → At (parse_ip_literal (PS.init (b!"[" ++ x ++ b!"]"))) [] (b!"[" ++ x ++ b!"]") [] 0 0 .ipv6 :=
    fun x hx => ip_literal_of hx (by simpa using At.init (b!"[" ++ x ++ b!"]"))
  by_cases hb : ∃ t, s = c!"[" :: t
  · obtain ⟨t, rfl⟩ := hb
    have h4 : ¬ IPv4 (c!"[" :: t) := fun h => (v4_head h).2 rfl
    by_cases hl : ∃ x, lib.ipLiteral x ∧ c!"[" :: t = b!"[" ++ x ++ b!"]"
    · obtain ⟨x, hx, e⟩ := hl
      have a := hlit x hx
      rw [← e] at a
      have : parse_plain_hostname (c!"[" :: t) = .ipv6 := by
        unfold parse_plain_hostname
        simp [a.ec, PS.done, a.p, a.host]
      rw [this, e]
      exact ⟨_, .literal hx, by simp, by simp⟩
    · refine hname h4 hl ?_
      unfold parse_plain_hostname
      simp only
      split
      · split
        · rfl
        · rename_i h
          exact absurd rfl (ip_literal_noMatch_inv (by simpa using h) t)
      · rename_i h
        split
        · rename_i hd
          exfalso
          obtain ⟨x, r, hx, e, hr⟩ := ip_literal_inv (ps := PS.init (c!"[" :: t)) rfl (by simpa using h)
          have hd : (parse_ip_literal (PS.init (c!"[" :: t))).p = [] := by simpa [PS.done] using hd
          rw [hd] at hr
          subst hr
          exact hl ⟨x, hx, by simpa [PS.init] using e⟩
        · rfl
  · have hb' : ∀ t, (PS.init s).p ≠ c!"[" :: t := fun t h => hb ⟨t, h⟩
    have hnl : ¬ ∃ x, lib.ipLiteral x ∧ s = b!"[" ++ x ++ b!"]" := by
      rintro ⟨x, -, rfl⟩; exact hb ⟨_, rfl⟩
    have he : parse_plain_hostname s = match match_ip_v4 s with
      | (true, q) => if q.isEmpty then .ipv4 else .name
      | (false, _) => .name := by
      unfold parse_plain_hostname
      rw [ip_literal_noMatch hb']
      simp [PS.init]; rfl
    by_cases h4 : IPv4 s
    · have := v4_of (r := []) h4 trivial
      rw [List.append_nil] at this
      rw [this] at he
      simp at he
      rw [he]
      exact ⟨_, .ipv4 h4, by simp, by simp⟩
    · refine hname h4 hnl ?_
      rw [he]
      split
      · rename_i q hq
        split
        · rename_i hq0
          exfalso
          obtain ⟨x, e, hx⟩ := v4_inv hq
          simp at hq0
          subst hq0
          simp at e
          subst e
          exact h4 hx
        · rfl
      · rfl

theorem plainHost_ne_none {s txt k} (h : PlainHost s txt k) : k ≠ .none := by cases h <;> simp

/-- adding an authority that consists of a host, and then setting the host type -/
theorem host_add {k : HostType} {f : Unit → M Unit} (hn : n = txt.length) (h : Holds env st (S :: X :: [] :: [] :: R) t)
    (hc : cells c' = S :: slashes :: [] :: txt.map some :: R)
    (hg : ∀ e s, f () e s = .ret () { s with pt := { s.pt with host := k } }) :
    SetsTo env st c' k ((do
      let dest ← Base.resize id_user (2 + n)
      M.put dest b!"/"
      M.put (dest + 1) b!"/"
      Base.split id_user 2
      Base.split id_password 0
      M.put (dest + 2) txt
      f ()) env st) := by
  subst hn
  refine resize_step (A := [S]) h rfl ?_ ?_ SetsTo.thrown
  · rw [← cells_length, hc]; simp; omega
  intro hs X' st' t' hl _ hp
  obtain ⟨a, Y, rfl, hl1⟩ := len_succ (n := txt.length + 1) (by omega : X'.length = _)
  obtain ⟨b, Y, rfl, hl2⟩ := len_succ hl1
  refine put_mid (A := [S]) [] [a] (b :: Y) hp (by simp) rfl rfl rfl fun st1 h1 => ?_
  refine put_mid (A := [S]) [some c!"/"] [b] Y h1 (by simp) rfl rfl rfl fun st2 h2 => ?_
  refine split_step (A := [S]) (x := slashes) (y := Y) (z := []) (by simpa using h2) rfl (by decide) rfl fun st4 h4 => ?_
  refine split_step (A := [S, slashes]) (x := []) (y := Y) (z := []) (by simpa using h4) rfl (by decide) rfl fun st5 h5 => ?_
  refine put_mid (A := [S, slashes, []]) [] Y [] (by simpa using h5) (by simp) (by simp) hl2 rfl fun st6 h6 => ?_
  rw [hg]
  exact h6.done_host k (by simp [hc]) hs

theorem run_assoc {α β γ : Type} (m : M α) (f : α → M β) (g : β → M γ) :
    ((m >>= f) >>= g) env st = (m >>= fun a => f a >>= g) env st := by
  rw [run_bind, run_bind, run_bind]
  cases m env st <;> rfl

/-- replacing the host of an authority, and then setting the host type -/
theorem host_keep {k : HostType} {f : Unit → M Unit} {H : List Cell} (hn : n = txt.length)
    (h : Holds env st (S :: X :: W :: H :: R) t) (hc : cells c' = S :: X :: W :: txt.map some :: R)
    (hg : ∀ e s, f () e s = .ret () { s with pt := { s.pt with host := k } }) :
    SetsTo env st c' k ((do
      let dest ← Base.resize id_host n
      M.put dest txt
      f ()) env st) := by
  subst hn
  refine resize_step (A := [S, X, W]) h rfl (cells_len (A := [S, X, W]) hc (by simp)) ?_ SetsTo.thrown
  intro hs X' st' t' hl _ hp
  refine put_mid (A := [S, X, W]) [] X' [] hp (by simp) (by simp) hl rfl fun st1 h1 => ?_
  rw [hg]
  exact h1.done_host k (by simp [hc]) hs

/-- adding an authority that consists of a port -/
theorem port_add (h : Holds env st (S :: X :: [] :: [] :: [] :: R) t)
    (hc : cells c' = S :: slashes :: [] :: [] :: (some c!":" :: txt.map some) :: R) :
    SetsTo env st c' st.pt.host ((do
      let dest ← Base.resize id_user (3 + txt.length)
      M.put dest b!"/"
      M.put (dest + 1) b!"/"
      M.put (dest + 2) b!":"
      Base.split id_user 2
      Base.split id_password 0
      Base.split id_host 0
      M.put (dest + 3) txt) env st) := by
  refine resize_step (A := [S]) h rfl ?_ ?_ SetsTo.thrown
  · rw [← cells_length, hc]; simp; omega
  intro hs X' st' t' hl _ hp
  obtain ⟨a, Y, rfl, hl1⟩ := len_succ (n := txt.length + 1 + 1) (by omega : X'.length = _)
  obtain ⟨b, Y, rfl, hl2⟩ := len_succ hl1
  obtain ⟨c, Y, rfl, hl3⟩ := len_succ hl2
  refine put_mid (A := [S]) [] [a] (b :: c :: Y) hp (by simp) rfl rfl rfl fun st1 h1 => ?_
  refine put_mid (A := [S]) [some c!"/"] [b] (c :: Y) h1 (by simp) rfl rfl rfl fun st2 h2 => ?_
  refine put_mid (A := [S]) slashes [c] Y h2 (by simp) rfl rfl rfl fun st3 h3 => ?_
  refine split_step (A := [S]) (x := slashes) (y := some c!":" :: Y) (z := []) (by simpa using h3) rfl (by decide) rfl fun st4 h4 => ?_
  refine split_step (A := [S, slashes]) (x := []) (y := some c!":" :: Y) (z := []) (by simpa using h4) rfl (by decide) rfl fun st5 h5 => ?_
  refine split_step (A := [S, slashes, []]) (x := []) (y := some c!":" :: Y) (z := []) (by simpa using h5) rfl (by decide) rfl fun st6 h6 => ?_
  refine last_step (put_mid (A := [S, slashes, [], []]) [some c!":"] Y [] (by simpa using h6) (by simp) (by simp) hl3 rfl fun st7 h7 => ?_)
  exact h7.done (by simp [hc]) hs

/-- `resize(id_user, id_path, 0)` -/
theorem auth_drop {H P : List Cell} (h : Holds env st (S :: X :: W :: H :: P :: R) t)
    (hc : cells c' = S :: [] :: [] :: [] :: [] :: R) :
    SetsTo env st c' st.pt.host ((Base.resize2 id_user id_path 0 >>= fun _ => pure ()) env st) := by
  refine resize2_step (A := [S]) (Xs := [X, W, H, P]) (k := 3) h rfl rfl rfl ?_ ?_ SetsTo.thrown
  · rw [← cells_length, hc]; simp
  intro hs X' st' t' hl _ hp
  obtain rfl := List.length_eq_zero_iff.1 hl
  exact hp.done hc.symm hs

/-! ### the components -/

/-- the five cells of the parts up to the port -/
theorem cells_auth (c : Components) : ∃ X W, cells c =
    (schemeText c.scheme).map some :: X :: W :: c.host.map some :: (portText c.port).map some ::
      [c.path.map some, (queryText c.query).map some, (fragText c.fragment).map some] ∧
    (c.auth = none → X = [] ∧ W = []) ∧
    (∀ c' : Components, c'.auth.isSome = c.auth.isSome → c'.userinfo = c.userinfo → cells c' =
      (schemeText c'.scheme).map some :: X :: W :: c'.host.map some :: (portText c'.port).map some ::
      [c'.path.map some, (queryText c'.query).map some, (fragText c'.fragment).map some]) := by
  obtain ⟨sc, a, p, q, f⟩ := c
  rcases a with _ | ⟨u, hst, pt⟩
  · refine ⟨[], [], by simp [cells_eq, authTexts, Components.host, Components.port, portText], by simp, ?_⟩
    rintro ⟨sc', a', p', q', f'⟩ h1 -
    cases a' <;> simp at h1
    simp [cells_eq, authTexts, Components.host, Components.port, portText]
  · have hu : ∃ X W, userParts b!"//" u = [X, W] := by rcases u with _ | ⟨u, _ | pw⟩ <;> exact ⟨_, _, rfl⟩
    obtain ⟨X, W, hu⟩ := hu
    refine ⟨X.map some, W.map some, by simp [cells_eq, authTexts, authParts, hu, Components.host, Components.port], by simp, ?_⟩
    rintro ⟨sc', a', p', q', f'⟩ h1 h2
    rcases a' with _ | ⟨u', hst', pt'⟩ <;> simp at h1
    simp [Components.userinfo] at h2
    subst h2
    simp [cells_eq, authTexts, authParts, hu, Components.host, Components.port]

section
variable {c : Components}

omit S X W t R c' txt n in
theorem Rep.length2 (h : Rep env st c) {b e : Nat} (hbe : b ≤ e) :
    st.pt.length2 b e = (((compParts c).take e).drop b).flatten.length :=
  (h.obj false).rep.length2 hbe

theorem hostEnd_nil {h : Str} (hh : Host lib h) : HostEnd h [] := by
  rcases hh with ⟨x, -, rfl⟩ | hr
  · exact .inl ⟨x, rfl⟩
  · refine .inr ⟨trivial, ?_⟩
    rintro t e
    rw [List.append_nil] at e
    subst e
    rcases escaped_head hr with h | h <;> revert h <;> decide

theorem addHost_of {k : HostType} {f : Unit → M Unit} (h : Rep env st c) (ha : c.auth = none)
    (hn : n = txt.length) (hg : ∀ e s, f () e s = .ret () { s with pt := { s.pt with host := k } }) :
    SetsTo env st (c.withHost txt) k ((do
      let dest ← Base.resize id_user (2 + n)
      M.put dest b!"/"
      M.put (dest + 1) b!"/"
      Base.split id_user 2
      Base.split id_password 0
      M.put (dest + 2) txt
      f ()) env st) := by
  obtain ⟨t, h⟩ := h
  obtain ⟨sc, a, p, q, fr⟩ := c
  obtain rfl : a = none := ha
  refine host_add (S := (schemeText sc).map some) (X := []) hn h ?_ hg
  simp [cells_eq, authTexts, authParts, userParts, Components.withHost, Components.withAuth, Components.authD, portText]

theorem keepHost_of {k : HostType} {f : Unit → M Unit} (h : Rep env st c) (ha : c.auth.isSome = true)
    (hn : n = txt.length) (hg : ∀ e s, f () e s = .ret () { s with pt := { s.pt with host := k } }) :
    SetsTo env st (c.withHost txt) k ((do
      let dest ← Base.resize id_host n
      M.put dest txt
      f ()) env st) := by
  obtain ⟨t, h⟩ := h
  obtain ⟨X, W, e, -, hc'⟩ := cells_auth c
  rw [e] at h
  refine host_keep hn h ?_ hg
  obtain ⟨sc, a, p, q, fr⟩ := c
  cases a with
  | none => simp at ha
  | some a => exact hc' (Components.withHost ⟨sc, some a, p, q, fr⟩ txt) rfl rfl

/-- the four ways of storing a host -/
theorem storeHost_of {k : HostType} {f : Unit → M Unit} (h : Rep env st c)
    (hn : n = txt.length) (hg : ∀ e s, f () e s = .ret () { s with pt := { s.pt with host := k } }) :
    SetsTo env st (c.withHost txt) k ((do
      if !(← M.ask fun o => .ok (has_authority o)) then
        let dest ← Base.resize id_user (2 + n)
        M.put dest b!"/"
        M.put (dest + 1) b!"/"
        Base.split id_user 2
        Base.split id_password 0
        M.put (dest + 2) txt
        f ()
      else
        let dest ← Base.resize id_host n
        M.put dest txt
        f ()) env st) := by
  rw [run_bind_ret (run_has_authority h)]
  cases ha : c.auth.isSome with
  | false => exact addHost_of h (by simpa using ha) hn hg
  | true => exact keepHost_of h ha hn hg

theorem addHost_bind (f : Unit → M Unit) : (Base.addHost txt >>= f) env st = (do
        let dest ← Base.resize id_user (2 + txt.length)
        M.put dest b!"/"
        M.put (dest + 1) b!"/"
        Base.split id_user 2
        Base.split id_password 0
        M.put (dest + 2) txt
        f ()) env st := by
  unfold Base.addHost
  simp only [run_bind]
  cases Base.resize id_user (2 + txt.length) env st with
  | throw => rfl
  | fault => rfl
  | ret d s =>
    simp only
    cases M.put d b!"/" env s with
    | throw => rfl
    | fault => rfl
    | ret _ s =>
      simp only
      cases M.put (d + 1) b!"/" env s with
      | throw => rfl
      | fault => rfl
      | ret _ s =>
        simp only
        cases Base.split id_user 2 env s with
        | throw => rfl
        | fault => rfl
        | ret _ s =>
          simp only
          cases Base.split id_password 0 env s with
          | throw => rfl
          | fault => rfl
          | ret _ s => rfl

/-- storing a host through `addHost` -/
theorem storeHost'_of {k : HostType} {f : Unit → M Unit} (h : Rep env st c)
    (hg : ∀ e s, f () e s = .ret () { s with pt := { s.pt with host := k } }) :
    SetsTo env st (c.withHost txt) k ((do
      if !(← M.ask fun o => .ok (has_authority o)) then
        let r ← Base.addHost txt
        f r
      else
        let dest ← Base.resize id_host txt.length
        M.put dest txt
        f ()) env st) := by
  rw [run_bind_ret (run_has_authority h)]
  cases ha : c.auth.isSome with
  | false =>
    have := addHost_of (txt := txt) (f := f) h (by simpa using ha) rfl hg
    rw [← addHost_bind] at this
    exact this
  | true => exact keepHost_of h ha rfl hg

theorem base_clear_host (h : Rep env st c) : SetsTo env st c.clearHost st.pt.host (Base.set_host [] env st) := by
  unfold Base.set_host
  simp only [List.isEmpty_nil, if_true]
  rw [run_bind_ret run_pt, run_bind_ret run_pt, h.length2 (by decide), h.length]
  have h' := h
  obtain ⟨t, hh⟩ := h'
  obtain ⟨sc, a, p, q, f⟩ := c
  rcases a with _ | ⟨u, hst, pt⟩
  · rw [if_neg (by simp [compParts, authTexts, id_user, id_host])]
    refine clear_of (A := [(schemeText sc).map some, [], []]) (X := []) (B := [[], p.map some, (queryText q).map some, (fragText f).map some]) hh rfl ?_
    simp [cells_eq, authTexts, Components.clearHost, Components.withAuth]
  · by_cases hup : u = none ∧ pt = none
    · obtain ⟨rfl, rfl⟩ := hup
      rw [if_pos (by simp [compParts, authTexts, authParts, userParts, portText, id_user, id_host, id_port]),
        run_bind_ret (run_assert (by rw [h.get]; rfl))]
      refine auth_drop hh ?_
      simp [cells_eq, authTexts, Components.clearHost, Components.withAuth]
    · rw [if_neg (by
        rcases u with _ | ⟨u, _ | pw⟩ <;> cases pt <;>
          simp_all [compParts, authTexts, authParts, userParts, portText, id_user, id_host, id_port])]
      obtain ⟨X, W, e, -, hc'⟩ := cells_auth ⟨sc, some ⟨u, hst, pt⟩, p, q, f⟩
      rw [e] at hh
      refine clear_of (A := [_, _, _]) hh rfl ?_
      have : (Components.mk sc (some ⟨u, hst, pt⟩) p q f).clearHost = ⟨sc, some ⟨u, [], pt⟩, p, q, f⟩ := by
        simp [Components.clearHost, Components.withAuth, hup]
      rw [this]
      exact hc' ⟨sc, some ⟨u, [], pt⟩, p, q, f⟩ rfl rfl

theorem base_set_host (h : Rep env st c) (s : Str) (hs : s ≠ []) :
    ∃ txt k, PlainHost s txt k ∧ SetsTo env st (c.withHost txt) k (Base.set_host s env st) := by
  obtain ⟨txt, hp, h1, h2⟩ := plain_hostname_of s
  refine ⟨txt, _, hp, ?_⟩
  unfold Base.set_host
  have he : s.isEmpty = false := by simpa using hs
  simp only [he, Bool.false_eq_true, if_false, (good_ip_literal (Good.init s)).flt]
  have hn := plainHost_ne_none hp
  generalize parse_plain_hostname s = k at *
  rw [run_bind_ret (run_pure k), run_bind_ret (run_assert (by simp [hn]))]
  by_cases hk : k = .name
  · obtain rfl := h2 hk
    rw [if_neg (by simp [hk]), ← encode_eq setOf_regName]
    exact storeHost_of (k := k) (f := fun _ => M.setPt fun pt => { pt with host := k }) h
      (encoded_size_eq setOf_regName _) fun _ _ => rfl
  · obtain rfl := h1 hk
    rw [if_pos hk]
    exact storeHost'_of (k := k) (f := fun _ => M.setPt fun pt => { pt with host := k }) h fun _ _ => rfl

theorem hostname_all {s : Str} : ((parse_hostname (PS.init s)).ec = none ∧ (parse_hostname (PS.init s)).p = []) ↔ Host lib s := by
  constructor
  · rintro ⟨h1, h2⟩
    obtain ⟨x, r, hx, hr, e⟩ := hostname_inv rfl h1
    have e : s = x ++ r := e
    subst e
    obtain ⟨k, a, -⟩ := hostname_of hx hr (by simp) (At.fresh 3 (x ++ r))
    have := a.p
    rw [h2] at this
    subst this
    simpa using hx
  · intro hx
    obtain ⟨k, a, -⟩ := hostname_of (L := List.replicate 3 []) (r := []) hx (hostEnd_nil hx) (by simp) (by simpa using At.fresh 3 s)
    exact ⟨a.ec, a.p⟩

theorem hostname_kind {s : Str} (hx : Host lib s) : HostKind s (parse_hostname (PS.init s)).pt.host := by
  obtain ⟨k, a, hk⟩ := hostname_of (L := List.replicate 3 []) (r := []) hx (hostEnd_nil hx) (by simp) (by simpa using At.fresh 3 s)
  rw [a.host]; exact hk

theorem base_set_encoded_host (h : Rep env st c) (s : Str) (hs : s ≠ []) :
    ∃ k, (Host lib s → HostKind s k) ∧
      Checked (Host lib s) env st (c.withHost s) k (Base.set_encoded_host s env st) := by
  refine ⟨(parse_hostname (PS.init s)).pt.host, hostname_kind, ?_⟩
  unfold Base.set_encoded_host
  have he : s.isEmpty = false := by simpa using hs
  simp only [he, Bool.false_eq_true, if_false]
  exact parsedAll_of (good_hostname (Good.init s)).flt hostname_all fun _ => storeHost'_of h fun _ _ => rfl

theorem base_set_encoded_host_nil : Base.set_encoded_host [] = Base.set_host [] := rfl

theorem match_port_iff {s : Str} : match_port s = true ↔ s.all isDigit := by
  unfold match_port
  rw [skipDigits_eq]
  induction s with
  | nil => simp
  | cons a s ih =>
    simp only [List.dropWhile_cons, List.all_cons]
    split
    · rename_i h; simpa [h] using ih
    · rename_i h; simp [h]

theorem base_store_port (h : Rep env st c) (s : Str) :
    SetsTo env st (c.withPort s) st.pt.host ((do
    if !(← M.ask fun o => .ok (has_authority o)) then
      let dest ← Base.resize id_user (3 + s.length)
      M.put dest b!"/"
      M.put (dest + 1) b!"/"
      M.put (dest + 2) b!":"
      Base.split id_user 2
      Base.split id_password 0
      Base.split id_host 0
      M.put (dest + 3) s
    else
      let dest ← Base.resize id_port (1 + s.length)
      M.put dest b!":"
      M.put (dest + 1) s) env st) := by
  rw [run_bind_ret (run_has_authority h)]
  obtain ⟨t, h⟩ := h
  cases ha : c.auth.isSome with
  | false =>
    obtain ⟨sc, a, p, q, fr⟩ := c
    obtain rfl : a = none := by simpa using ha
    refine port_add (S := (schemeText sc).map some) (X := []) h ?_
    simp [cells_eq, authTexts, authParts, userParts, Components.withPort, Components.withAuth, Components.authD, portText]
  | true =>
    obtain ⟨X, W, e, -, hc'⟩ := cells_auth c
    rw [e] at h
    refine writeDelim_of (A := [_, _, _, _]) rfl h rfl ?_
    obtain ⟨sc, a, p, q, fr⟩ := c
    cases a with
    | none => simp at ha
    | some a => exact hc' (Components.withPort ⟨sc, some a, p, q, fr⟩ s) rfl rfl

theorem base_clear_port (h : Rep env st c) : SetsTo env st c.clearPort st.pt.host (Base.set_port [] env st) := by
  unfold Base.set_port
  simp only [List.isEmpty_nil, if_true]
  rw [run_bind_ret run_pt, h.length2 (by decide)]
  have h' := h
  obtain ⟨t, hh⟩ := h'
  obtain ⟨sc, a, p, q, f⟩ := c
  rcases a with _ | ⟨u, hst, pt⟩
  · rw [if_neg (by simp [compParts, authTexts, id_user, id_port])]
    refine clear_of (A := [(schemeText sc).map some, [], [], []]) (X := []) (B := [p.map some, (queryText q).map some, (fragText f).map some]) hh rfl ?_
    simp [cells_eq, authTexts, Components.clearPort, Components.withAuth]
  · by_cases hup : u = none ∧ hst = []
    · obtain ⟨rfl, rfl⟩ := hup
      rw [if_pos (by simp [compParts, authTexts, authParts, userParts, portText, id_user, id_host, id_port]),
        run_bind_ret (run_assert (by rw [h.get]; rfl))]
      refine auth_drop hh ?_
      simp [cells_eq, authTexts, Components.clearPort, Components.withAuth]
    · rw [if_neg (by
        rcases u with _ | ⟨u, _ | pw⟩ <;> cases hst <;>
          simp_all [compParts, authTexts, authParts, userParts, portText, id_user, id_host, id_port]; try omega)]
      obtain ⟨X, W, e, -, hc'⟩ := cells_auth ⟨sc, some ⟨u, hst, pt⟩, p, q, f⟩
      rw [e] at hh
      refine clear_of (A := [_, _, _, _]) hh rfl ?_
      have : (Components.mk sc (some ⟨u, hst, pt⟩) p q f).clearPort = ⟨sc, some ⟨u, hst, none⟩, p, q, f⟩ := by
        simp [Components.clearPort, Components.withAuth, hup]
      rw [this]
      exact hc' ⟨sc, some ⟨u, hst, none⟩, p, q, f⟩ rfl rfl

theorem base_set_port (h : Rep env st c) (s : Str) (hs : s ≠ []) :
    Checked (s.all isDigit) env st (c.withPort s) st.pt.host (Base.set_port s env st) := by
  unfold Base.set_port
  have he : s.isEmpty = false := by simpa using hs
  simp only [he, Bool.false_eq_true, if_false]
  exact (require_of fun _ => base_store_port h s).congr match_port_iff

theorem base_set_port_number (h : Rep env st c) (n : UInt32) :
    ∃ s, Decimal n.toNat s ∧ SetsTo env st (c.withPort s) st.pt.host (Base.set_port_number n env st) := by
  obtain ⟨s, e, hd, -⟩ := port_string_of n
  refine ⟨s, hd, ?_⟩
  unfold Base.set_port_number
  rw [run_bind_ret (run_ask e)]
  rcases base_set_port h s hd.1 with ⟨-, h⟩ | ⟨h, -⟩
  · exact h
  · exact absurd hd.2.1 h

/-- `":"` where there is no authority writes a colon that is not part of an authority. -/
theorem base_set_port_part (h : Rep env st c) (s : Str) (hs : s ≠ []) (hc : s = b!":" → c.auth.isSome = true) :
    Checked (∃ p, s = c!":" :: p ∧ p.all isDigit) env st (c.withPort (s.drop 1)) st.pt.host (Base.set_port_part s env st) := by
  unfold Base.set_port_part
  have he : s.isEmpty = false := by simpa using hs
  simp only [he, Bool.false_eq_true, if_false]
  cases s with
  | nil => exact absurd rfl hs
  | cons d p =>
    by_cases hd : d = c!":"
    · subst hd
      rw [run_bind_ret (run_require (by simp))]
      cases p with
      | nil =>
        refine .inl ⟨⟨[], rfl, rfl⟩, ?_⟩
        have ha := hc rfl
        simp only [List.length_singleton, Nat.lt_irrefl, if_false, gt_iff_lt]
        obtain ⟨t, hh⟩ := h
        obtain ⟨X, W, e, -, hc'⟩ := cells_auth c
        rw [e] at hh
        refine write_of (A := [_, _, _, _]) rfl hh rfl ?_
        obtain ⟨sc, a, p, q, fr⟩ := c
        cases a with
        | none => simp at ha
        | some a => exact hc' (Components.withPort ⟨sc, some a, p, q, fr⟩ []) rfl rfl
      | cons b p =>
        rw [if_pos (by simp)]
        exact (base_set_port h (b :: p) (by simp)).congr (by simp)
    · refine .inr ⟨by rintro ⟨q, e, -⟩; simp at e; exact hd e.1, ?_⟩
      rw [run_bind_throw (run_require_false (by simpa using hd))]

theorem base_set_port_part_nil : Base.set_port_part [] = Base.set_port [] := rfl

end

end Url
