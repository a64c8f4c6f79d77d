import Verif.Props.AlikeWorked

/-!
C54: what can be asked of urls with the same text and parts, after any calls and any edits through iterators into the path.
-/

set_option autoImplicit false

namespace Url.Props
open Url Spec

/-- The accessors of `url_base` that give a string. -/
inductive Getter where
  | encoded_url | encoded_origin | scheme | encoded_authority | encoded_userinfo | userinfo_part | encoded_user | user | encoded_password
  | password | password_part | encoded_host_and_port | encoded_host | host | port | port_part | encoded_path | encoded_query | query
  | query_part | encoded_fragment | fragment | fragment_part

/-- What they give. -/
def Getter.ask : Getter → Obj → R Str
  | .encoded_url => Url.encoded_url
  | .encoded_origin => Url.encoded_origin
  | .scheme => Url.scheme
  | .encoded_authority => Url.encoded_authority
  | .encoded_userinfo => Base.encoded_userinfo
  | .userinfo_part => Url.userinfo_part
  | .encoded_user => Url.encoded_user
  | .user => Url.user
  | .encoded_password => Base.encoded_password
  | .password => Base.password
  | .password_part => Url.password_part
  | .encoded_host_and_port => Url.encoded_host_and_port
  | .encoded_host => Url.encoded_host
  | .host => Url.host
  | .port => Url.port
  | .port_part => Url.port_part
  | .encoded_path => Url.encoded_path
  | .encoded_query => Url.encoded_query
  | .query => Url.query
  | .query_part => Url.query_part
  | .encoded_fragment => Url.encoded_fragment
  | .fragment => Url.fragment
  | .fragment_part => Url.fragment_part

/-- the accessors use the table of parts and the text between offsets -/
theorem Getter.congr {o o' : Obj} (hd : o.dbg = o'.dbg) (hp : o.pt = o'.pt) (hg : ∀ b e, b ≤ e → o.get2 b e = o'.get2 b e) (g : Getter) :
    g.ask o = g.ask o' := by
  have h1 : ∀ i, o.get i = o'.get i := fun i => hg i (i + 1) (Nat.le_succ i)
  have h2 : o.get2 id_scheme id_end = o'.get2 id_scheme id_end := hg _ _ (by decide)
  have h3 : o.get2 id_scheme id_path = o'.get2 id_scheme id_path := hg _ _ (by decide)
  have h4 : o.get2 id_user id_path = o'.get2 id_user id_path := hg _ _ (by decide)
  have h5 : o.get2 id_user id_host = o'.get2 id_user id_host := hg _ _ (by decide)
  have h6 : o.get2 id_host id_path = o'.get2 id_host id_path := hg _ _ (by decide)
  have h7 : ∀ c, o.assert c = o'.assert c := fun c => by unfold Obj.assert; rw [hd]
  cases g <;>
    simp only [Getter.ask, Url.encoded_url, Url.encoded_origin, Url.scheme, Url.encoded_authority, Base.encoded_userinfo, Url.userinfo_part,
      Url.encoded_user, Url.user, Base.encoded_password, Base.password, Url.password_part, Url.encoded_host_and_port, Url.encoded_host, Url.host,
      Url.port, Url.port_part, Url.encoded_path, Url.encoded_query, Url.query, Url.query_part, Url.encoded_fragment, Url.fragment, Url.fragment_part,
      Url.delimited, h1, h2, h3, h4, h5, h6, h7, hp]

variable {env env' : Env} {a b : St}

/-- C54 for all histories: every accessor gives the same on objects with the same text and parts, if the text can be read. -/
theorem C54_accessors_worked {s : Str} (ha : Worked env a) (hb : Worked env' b) (hs : Alike a b) (hr : encoded_url (a.obj false) = .ok s)
    (dbg : Bool) :
    (∀ g : Getter, g.ask (a.obj dbg) = g.ask (b.obj dbg)) ∧ Url.size (a.obj dbg) = Url.size (b.obj dbg) ∧
    has_authority (a.obj dbg) = has_authority (b.obj dbg) ∧ Base.has_userinfo (a.obj dbg) = Base.has_userinfo (b.obj dbg) ∧
    host_type (a.obj dbg) = host_type (b.obj dbg) := by
  obtain ⟨x, hx, hy⟩ := alike_texts ha hb hs hr
  obtain ⟨t, h⟩ := texts_holds ha hx
  obtain ⟨t', h'⟩ := texts_holds hb hy
  have hp : (a.obj dbg).pt = (b.obj dbg).pt := hs.pt
  have hg : ∀ i, (a.obj dbg).get i = (b.obj dbg).get i := fun i => by rw [h.get, h'.get]
  have h7 : ∀ c, (a.obj dbg).assert c = (b.obj dbg).assert c := fun _ => rfl
  refine ⟨Getter.congr rfl hp fun i j hij => by rw [h.get2 hij, h'.get2 hij], ?_, ?_, ?_, ?_⟩
  · unfold Url.size; rw [hp]
  · unfold has_authority; rw [hp]
  · unfold Base.has_userinfo hasUserinfoTo; simp only [hp, hg, h7]
  · unfold host_type; rw [hp]

/-- A case of it that `C54_accessors` does not have: the texts are not the parts of a URL. -/
example : Worked env0 (after (colonOne ++ [.set_encoded_path b!"/p"])) ∧ Worked env1 (afterRelease (colonTwo ++ [.set_encoded_path b!"/p"])) ∧
    Alike (after (colonOne ++ [.set_encoded_path b!"/p"])) (afterRelease (colonTwo ++ [.set_encoded_path b!"/p"])) ∧
    encoded_url ((after (colonOne ++ [.set_encoded_path b!"/p"])).obj false) = .ok b!":/p" ∧
    (after (colonOne ++ [.set_encoded_path b!"/p"])).buf ≠ (afterRelease (colonTwo ++ [.set_encoded_path b!"/p"])).buf ∧
    Getter.ask .port_part ((after (colonOne ++ [.set_encoded_path b!"/p"])).obj false) = .ok b!":" ∧
    Getter.ask .encoded_authority ((after (colonOne ++ [.set_encoded_path b!"/p"])).obj true) = .error .assert :=
  have ha : Worked env0 (after (colonOne ++ [.set_encoded_path b!"/p"])) := (after_used (by decide +kernel)).worked
  have hb : Worked env1 (afterRelease (colonTwo ++ [.set_encoded_path b!"/p"])) := (afterRelease_used (by decide +kernel)).worked
  ⟨ha, hb, texts_alike_of (x := ⟨[], [], [], [], b!":", b!"/p", [], []⟩) ha hb (by decide +kernel), by decide +kernel, by decide +kernel,
    by decide +kernel, by decide +kernel⟩

end Url.Props
