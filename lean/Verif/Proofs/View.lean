import Verif.Model.View
import Verif.Spec.Accessors
import Verif.Proofs.ParseUrl

/-!
The accessors on an object whose memory holds the texts of the parts of some components. Nothing is
assumed about the characters of the components.
-/

set_option linter.unusedSimpArgs false

namespace Url
open Spec

/-- The object holds the parts `L`. -/
structure ObjRep (o : Obj) (L : List Str) : Prop where
  rep : PtRep o.pt L
  mem : ∃ rest, o.mem = L.flatten.map some ++ rest

theorem mapM_some (s : Str) : (s.map some).mapM (m := Option) id = some s := by
  induction s with
  | nil => rfl
  | cons c t ih => simp [List.mapM_cons, ih]

theorem read_of {o : Obj} {A B : Str} {rest : List Cell} (h : o.mem = A.map some ++ (B.map some ++ rest)) :
    o.read A.length B.length = .ok B := by
  unfold Obj.read
  split
  · rename_i h0
    rw [List.length_eq_zero_iff.1 h0]
  · rw [if_pos (by rw [h]; simp)]
    have : (o.mem.drop A.length).take B.length = B.map some := by
      rw [h]
      have := List.drop_left (l₁ := A.map some) (l₂ := B.map some ++ rest)
      simp only [List.length_map] at this
      rw [this]
      simp
    rw [this, mapM_some]

theorem plen_mono {α : Type} (L : List (List α)) {b e : Nat} (h : b ≤ e) :
    plen L e = plen L b + ((L.take e).drop b).flatten.length := by
  have : L.take e = L.take b ++ (L.take e).drop b := by
    have := (List.take_append_drop b (L.take e)).symm
    rwa [List.take_take, Nat.min_eq_left h] at this
  unfold plen
  conv => lhs; rw [this]
  simp

theorem ObjRep.get2 {o L} (h : ObjRep o L) {b e : Nat} (hbe : b ≤ e) :
    o.get2 b e = .ok ((L.take e).drop b).flatten := by
  obtain ⟨rest, hm⟩ := h.mem
  have e1 := plen_mono L hbe
  unfold Obj.get2
  rw [h.rep, h.rep, if_pos (by omega), show plen L e - plen L b = ((L.take e).drop b).flatten.length by omega]
  unfold plen
  have hL : L = L.take b ++ ((L.take e).drop b ++ L.drop e) := by
    have h1 : L.take b = (L.take e).take b := by rw [List.take_take, Nat.min_eq_left hbe]
    rw [h1, ← List.append_assoc, List.take_append_drop, List.take_append_drop]
  apply read_of (rest := (L.drop e).flatten.map some ++ rest)
  rw [hm]
  conv => lhs; rw [hL]
  simp [-List.map_flatten, -List.take_append_drop]

theorem take_drop_one {α : Type} (L : List (List α)) (id : Nat) :
    ((L.take (id + 1)).drop id).flatten = L.getD id [] := by
  induction L generalizing id with
  | nil => simp
  | cons x t ih =>
    cases id with
    | zero => simp
    | succ id => simpa using ih id

theorem getD_left {α : Type} {A B : List (List α)} {i : Nat} (h : i < A.length) : (A ++ B).getD i [] = A.getD i [] := by
  simp [List.getD, List.getElem?_append_left h]

theorem getD_right {α : Type} {A B : List (List α)} (i : Nat) : (A ++ B).getD (A.length + i) [] = B.getD i [] := by
  simp [List.getD, List.getElem?_append_right]

theorem ObjRep.get {o L} (h : ObjRep o L) (id : Nat) : o.get id = .ok (L.getD id []) := by
  unfold Obj.get
  rw [h.get2 (Nat.le_succ id)]
  exact congrArg _ (take_drop_one L id)

theorem PtRep.length2 {α : Type} {pt : Parts} {L : List (List α)} (h : PtRep pt L) {b e : Nat} (hbe : b ≤ e) :
    pt.length2 b e = ((L.take e).drop b).flatten.length := by
  unfold Parts.length2
  rw [h, h, plen_mono L hbe]
  omega

theorem PtRep.length {α : Type} {pt : Parts} {L : List (List α)} (h : PtRep pt L) (id : Nat) :
    pt.length id = (L.getD id []).length := by
  have := h.length2 (Nat.le_succ id)
  unfold Parts.length2 at this
  unfold Parts.length
  rw [this]
  exact congrArg _ (take_drop_one L id)

@[simp] theorem assert_true (o : Obj) : o.assert (.ok true) = .ok () := by
  unfold Obj.assert; split <;> rfl

@[simp] theorem bind_ok {α β : Type} (a : α) (f : α → R β) : (Except.ok a >>= f) = f a := rfl
@[simp] theorem pure_ok {α : Type} (a : α) : (pure a : R α) = .ok a := rfl

@[simp] theorem backIs_snoc (s : Str) (c : Byte) : backIs (s ++ [c]) c = .ok true := by
  simp [backIs]

@[simp] theorem backIs_cons_snoc (d : Byte) (s : Str) (c : Byte) : backIs (d :: (s ++ [c])) c = .ok true := by
  have := backIs_snoc (d :: s) c
  simpa using this

@[simp] theorem backIs_single (c : Byte) : backIs [c] c = .ok true := by
  simp [backIs]

@[simp] theorem frontIs_cons (s : Str) (c d : Byte) : frontIs (d :: s) c = .ok (d == c) := rfl

@[simp] theorem removeSuffix_snoc (s t : Str) : removeSuffix (s ++ t) t.length = .ok s := by
  simp [removeSuffix]

@[simp] theorem removeSuffix_one (s : Str) (c : Byte) : removeSuffix (s ++ [c]) 1 = .ok s := by
  have := removeSuffix_snoc s [c]
  simpa using this

@[simp] theorem removeSuffix_single (c : Byte) : removeSuffix [c] 1 = .ok [] := by
  have := removeSuffix_snoc [] [c]
  simpa using this

@[simp] theorem removeSuffix_cons (d : Byte) (s : Str) (c : Byte) : removeSuffix (d :: (s ++ [c])) 1 = .ok (d :: s) := by
  have := removeSuffix_snoc (d :: s) [c]
  simpa using this

@[simp] theorem removePrefix_one (s : Str) (c : Byte) : removePrefix (c :: s) 1 = .ok s := by
  simp [removePrefix]

@[simp] theorem removePrefix_two (s : Str) (c d : Byte) : removePrefix (c :: d :: s) 2 = .ok s := by
  simp [removePrefix]

/-! ### the accessors -/

section
variable {o : Obj} {c : Components} (h : ObjRep o (compParts c))
include h

theorem acc_size : size o = c.render.length := by
  unfold size
  rw [h.rep, plen_of_le (by rw [compParts_length]; decide), compParts_flatten]

theorem acc_url : encoded_url o = .ok c.render := by
  unfold encoded_url
  rw [h.get2 (by decide), ← compParts_flatten]
  have : (compParts c).take id_end = compParts c := List.take_of_length_le (by rw [compParts_length]; decide)
  rw [this]
  rfl

theorem acc_origin : encoded_origin o = .ok c.origin := by
  unfold encoded_origin
  rw [h.get2 (by decide)]
  congr 1
  obtain ⟨s, a, p, q, f⟩ := c
  have : ((compParts ⟨s, a, p, q, f⟩).take id_path).drop id_scheme = schemeText s :: authTexts a := by
    have hl := authTexts_length a
    simp only [compParts, List.drop_zero, List.cons_append]
    rw [show id_path = 4 + 1 from rfl, List.take_succ_cons, ← hl, List.take_left]
  rw [this, List.flatten_cons, authTexts_flatten]
  cases s <;> cases a <;> simp [Components.origin, schemeText, withSuffix, withPrefix]

theorem acc_scheme : scheme o = .ok (c.scheme.getD []) := by
  unfold scheme
  rw [h.get]
  obtain ⟨s, a, p, q, f⟩ := c
  cases s <;> simp [compParts, schemeText]

theorem auth_texts_get (b e : Nat) (hb : 1 ≤ b) (he : e ≤ 5) :
    ((compParts c).take e).drop b = ((authTexts c.auth).take (e - 1)).drop (b - 1) := by
  obtain ⟨s, a, p, q, f⟩ := c
  have hl := authTexts_length a
  obtain ⟨b, rfl⟩ : ∃ k, b = k + 1 := ⟨b - 1, by omega⟩
  cases e with
  | zero => simp
  | succ e =>
    simp only [compParts, List.cons_append, List.take_succ_cons, List.drop_succ_cons, Nat.add_sub_cancel]
    rw [List.take_append_of_le_length (by omega)]

theorem acc_has_authority : has_authority o = c.auth.isSome := by
  unfold has_authority
  rw [h.rep.length2 (by decide), auth_texts_get h _ _ (by decide) (by decide)]
  obtain ⟨s, a, p, q, f⟩ := c
  cases a with
  | none => rfl
  | some a =>
    obtain ⟨_ | ⟨u, _ | pw⟩, hh, pp⟩ := a <;>
      simp [authTexts, authParts, userParts, id_path, id_user] <;> omega

theorem acc_authority : encoded_authority o = .ok c.authority := by
  unfold encoded_authority
  rw [h.get2 (by decide), auth_texts_get h _ _ (by decide) (by decide)]
  obtain ⟨s, a, p, q, f⟩ := c
  have : ((authTexts a).take (id_path - 1)).drop (id_user - 1) = authTexts a := by
    simp [id_path, id_user]
    rw [List.take_of_length_le (by rw [authTexts_length]; decide)]
  simp only [this, authTexts_flatten]
  cases a with
  | none => simp [Components.authority]
  | some a => simp [Components.authority]

theorem acc_user_part (id : Nat) (h1 : 1 ≤ id) (h2 : id ≤ 4) :
    o.get id = .ok ((authTexts c.auth).getD (id - 1) []) := by
  rw [h.get]
  obtain ⟨s, a, p, q, f⟩ := c
  have hl := authTexts_length a
  obtain ⟨b, rfl⟩ : ∃ k, id = k + 1 := ⟨id - 1, by omega⟩
  simp only [compParts, List.cons_append, List.getD_cons_succ, Nat.add_sub_cancel]
  rw [getD_left (by omega)]

theorem acc_user_len (id : Nat) (h1 : 1 ≤ id) (h2 : id ≤ 4) :
    o.pt.length id = ((authTexts c.auth).getD (id - 1) []).length := by
  rw [h.rep.length]
  obtain ⟨s, a, p, q, f⟩ := c
  have hl := authTexts_length a
  obtain ⟨b, rfl⟩ : ∃ k, id = k + 1 := ⟨id - 1, by omega⟩
  simp only [compParts, List.cons_append, List.getD_cons_succ, Nat.add_sub_cancel]
  rw [getD_left (by omega)]

theorem acc_user : encoded_user o = .ok c.user := by
  unfold encoded_user
  rw [acc_user_part h _ (by decide) (by decide)]
  obtain ⟨s, a, p, q, f⟩ := c
  rcases a with _ | ⟨_ | ⟨u, _ | pw⟩, hh, pp⟩ <;>
    simp [authTexts, authParts, userParts, id_user, Components.user, Components.userinfo]

theorem acc_view_password : View.encoded_password o = .ok c.password := by
  unfold View.encoded_password
  rw [acc_user_part h _ (by decide) (by decide)]
  obtain ⟨s, a, p, q, f⟩ := c
  rcases a with _ | ⟨_ | ⟨u, _ | pw⟩, hh, pp⟩ <;>
    simp [authTexts, authParts, userParts, id_password, Components.password, Components.userinfo]

theorem acc_base_password : Base.encoded_password o = .ok c.password := by
  unfold Base.encoded_password
  rw [acc_user_part h _ (by decide) (by decide)]
  obtain ⟨s, a, p, q, f⟩ := c
  rcases a with _ | ⟨_ | ⟨u, _ | pw⟩, hh, pp⟩ <;>
    simp [authTexts, authParts, userParts, id_password, Components.password, Components.userinfo]

theorem acc_has_userinfo_to (e : Nat) (h1 : 2 ≤ e) (h2 : e ≤ 5) : hasUserinfoTo e o = .ok c.userinfo.isSome := by
  unfold hasUserinfoTo
  rw [acc_user_part h _ (by decide) (by decide), acc_user_part h _ (by decide) (by decide),
    acc_user_len h _ (by decide) (by decide), acc_user_len h _ (by decide) (by decide),
    h.rep.length2 (by show 1 ≤ e; omega), auth_texts_get h _ _ (by decide) h2]
  obtain ⟨s, a, p, q, f⟩ := c
  rcases a with _ | ⟨_ | ⟨u, _ | pw⟩, hh, pp⟩
  · have : ((([[], [], [], []] : List Str).take (e - 1)).drop 0).flatten.length = 0 := by
      have : e = 2 ∨ e = 3 ∨ e = 4 ∨ e = 5 := by omega
      rcases this with rfl | rfl | rfl | rfl <;> rfl
    simp only [authTexts, id_user, Nat.sub_self]
    rw [this]
    simp [Components.userinfo]
  · simp [authTexts, authParts, userParts, id_user, id_password, Components.userinfo]
  · cases u <;> simp [authTexts, authParts, userParts, id_user, id_password, Components.userinfo]
  · cases u <;> simp [authTexts, authParts, userParts, id_user, id_password, Components.userinfo]

theorem acc_view_has_userinfo : View.has_userinfo o = .ok c.userinfo.isSome :=
  acc_has_userinfo_to h _ (by decide) (by decide)

theorem acc_base_has_userinfo : Base.has_userinfo o = .ok c.userinfo.isSome :=
  acc_has_userinfo_to h _ (by decide) (by decide)

theorem acc_userinfo_part : userinfo_part o = .ok (withSuffix b!"@" (c.userinfo.map fun u => userinfoText (some u))) := by
  unfold userinfo_part
  rw [h.get2 (by decide), auth_texts_get h _ _ (by decide) (by decide)]
  obtain ⟨s, a, p, q, f⟩ := c
  rcases a with _ | ⟨_ | ⟨u, _ | pw⟩, hh, pp⟩
  · rfl
  · simp [authTexts, authParts, userParts, id_user, id_host, Components.userinfo, withSuffix, userinfoText]
  · simp [authTexts, authParts, userParts, id_user, id_host, Components.userinfo, withSuffix, userinfoText]
  · have := backIs_snoc (u ++ c!":" :: pw) c!"@"
    simp only [List.append_assoc, List.cons_append] at this
    simp [authTexts, authParts, userParts, id_user, id_host, Components.userinfo, withSuffix, userinfoText, this]

theorem acc_base_userinfo : Base.encoded_userinfo o = .ok (userinfoText c.userinfo) := by
  unfold Base.encoded_userinfo
  rw [acc_userinfo_part h]
  obtain ⟨s, a, p, q, f⟩ := c
  rcases a with _ | ⟨_ | ⟨u, _ | pw⟩, hh, pp⟩
  · rfl
  · rfl
  · simp [Components.userinfo, withSuffix, userinfoText]
  · have := backIs_snoc (u ++ c!":" :: pw) c!"@"
    have h2 := removeSuffix_one (u ++ c!":" :: pw) c!"@"
    simp only [List.append_assoc, List.cons_append] at this h2
    simp [Components.userinfo, withSuffix, userinfoText, this, h2]

theorem acc_view_userinfo : View.encoded_userinfo o = .ok (userinfoText c.userinfo) := by
  unfold View.encoded_userinfo
  rw [h.get2 (by decide), auth_texts_get h _ _ (by decide) (by decide)]
  obtain ⟨s, a, p, q, f⟩ := c
  rcases a with _ | ⟨_ | ⟨u, _ | pw⟩, hh, pp⟩
  · rfl
  · simp [authTexts, authParts, userParts, id_user, id_host, Components.userinfo, withSuffix, userinfoText]
  · simp [authTexts, authParts, userParts, id_user, id_host, Components.userinfo, withSuffix, userinfoText]
  · have := backIs_snoc (u ++ c!":" :: pw) c!"@"
    have h2 := removeSuffix_one (u ++ c!":" :: pw) c!"@"
    simp only [List.append_assoc, List.cons_append] at this h2
    simp [authTexts, authParts, userParts, id_user, id_host, Components.userinfo, withSuffix, userinfoText, this, h2]

theorem acc_host : encoded_host o = .ok c.host := by
  unfold encoded_host
  rw [acc_user_part h _ (by decide) (by decide)]
  obtain ⟨s, a, p, q, f⟩ := c
  rcases a with _ | ⟨_ | ⟨u, _ | pw⟩, hh, pp⟩ <;>
    simp [authTexts, authParts, userParts, id_host, Components.host]

theorem acc_port_get : o.get id_port = .ok (withPrefix b!":" c.port) := by
  rw [acc_user_part h _ (by decide) (by decide)]
  obtain ⟨s, a, p, q, f⟩ := c
  rcases a with _ | ⟨_ | ⟨u, _ | pw⟩, hh, _ | pp⟩ <;>
    simp [authTexts, authParts, userParts, id_port, Components.port, withPrefix, portText]

theorem acc_port_part : port_part o = .ok (withPrefix b!":" c.port) := by
  unfold port_part
  rw [acc_port_get h]
  cases c.port <;> simp [withPrefix]

theorem acc_port : port o = .ok (c.port.getD []) := by
  unfold port
  rw [acc_port_get h]
  cases c.port <;> simp [withPrefix]

theorem acc_host_and_port : encoded_host_and_port o = .ok (c.host ++ withPrefix b!":" c.port) := by
  unfold encoded_host_and_port
  rw [h.get2 (by decide), auth_texts_get h _ _ (by decide) (by decide)]
  obtain ⟨s, a, p, q, f⟩ := c
  rcases a with _ | ⟨_ | ⟨u, _ | pw⟩, hh, _ | pp⟩ <;>
    simp [authTexts, authParts, userParts, id_host, id_path, Components.host, Components.port, withPrefix, portText]

theorem acc_tail_part (id : Nat) (h1 : 5 ≤ id) (h2 : id ≤ 7) :
    o.get id = .ok (([c.path, queryText c.query, fragText c.fragment] : List Str).getD (id - 5) []) := by
  rw [h.get]
  obtain ⟨s, a, p, q, f⟩ := c
  have hl := authTexts_length a
  obtain ⟨b, rfl⟩ : ∃ k, id = k + 5 := ⟨id - 5, by omega⟩
  simp only [compParts, List.cons_append, List.getD_cons_succ, Nat.add_sub_cancel]
  rw [show b + 4 = (authTexts a).length + b by omega, getD_right]

theorem acc_path : encoded_path o = .ok c.path := by
  unfold encoded_path
  rw [acc_tail_part h _ (by decide) (by decide)]
  rfl

theorem acc_query_part : query_part o = .ok (withPrefix b!"?" c.query) := by
  unfold query_part delimited
  rw [acc_tail_part h _ (by decide) (by decide)]
  cases c.query <;> simp [queryText, withPrefix, id_query]

theorem acc_query : encoded_query o = .ok (c.query.getD []) := by
  unfold encoded_query
  have := acc_query_part h
  unfold query_part at this
  rw [this]
  cases c.query <;> simp [withPrefix]

theorem acc_fragment_part : fragment_part o = .ok (withPrefix b!"#" c.fragment) := by
  unfold fragment_part delimited
  rw [acc_tail_part h _ (by decide) (by decide)]
  cases c.fragment <;> simp [fragText, withPrefix, id_frag]

theorem acc_fragment : encoded_fragment o = .ok (c.fragment.getD []) := by
  unfold encoded_fragment
  have := acc_fragment_part h
  unfold fragment_part at this
  rw [this]
  cases c.fragment <;> simp [withPrefix]

end

end Url
