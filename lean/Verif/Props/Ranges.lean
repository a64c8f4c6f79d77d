import Verif.Props.Letters
import Verif.Proofs.Params

/-!
The texts that the iterators of a `url` walk over, after any calls and edits.
-/

set_option autoImplicit false

namespace Url.Props
open Url Spec

variable {env : Env} {st : St} {o : Obj} {A p q f : Str}

/-- The object holds the path `p`, the query `q` and the fragment `f`, the latter two with their delimiters, after as many cells as `A` has
characters. -/
structure Ranged (o : Obj) (A p q f : Str) : Prop where
  mem : ∃ X rest, X.length = A.length ∧ o.mem = X ++ (p.map some ++ (q.map some ++ (f.map some ++ rest)))
  off5 : o.pt.off id_path = A.length
  off6 : o.pt.off id_query = A.length + p.length
  off7 : o.pt.off id_frag = A.length + p.length + q.length
  off8 : o.pt.off id_end = A.length + p.length + q.length + f.length
  path : encoded_path o = .ok p
  part : query_part o = .ok q
  query : encoded_query o = .ok (q.drop 1)
  fragment : fragment_part o = .ok f
  qok : q = [] ∨ ∃ x, QChars x ∧ q = c!"?" :: x
  fok : f = [] ∨ ∃ x, f = c!"#" :: x
  term : ∀ c, o.byte (o.pt.off id_end) = .ok c → c = 0

theorem Worked.ranged (hw : Worked env st) (dbg : Bool) : ∃ A p q f, Ranged (st.obj dbg) A p q f := by
  obtain ⟨S, U, W, H, P, q', f', t, pa, hp, hl⟩ := hw.release.lettered rfl
  obtain ⟨-, -, -, ⟨q, e6, h6⟩, ⟨f, e7, h7⟩⟩ := hl
  cases (show q' = q.map some from e6)
  cases (show f' = f.map some from e7)
  have g : ∀ {id : Nat} {s : Str}, [S, U, W, H, P, pa.map some, q.map some, f.map some].getD id [] = s.map some → (st.obj dbg).get id = .ok s := by
    intro id s e
    rw [hp.holds.get id dbg, e, readCells_some]
  have k6 : q = [] ∨ q = c!"?" :: q.drop 1 := h6.imp id fun ⟨x, _, e⟩ => by rw [e]; rfl
  have k7 : f = [] ∨ f = c!"#" :: f.drop 1 := h7.imp id fun ⟨x, _, e⟩ => by rw [e]; rfl
  have hq := delimited_reads (g (id := id_query) rfl) k6
  have hX : (S ++ U ++ W ++ H ++ P).length = (List.replicate (S.length + U.length + W.length + H.length + P.length) (0 : Byte)).length := by
    simp [Nat.add_assoc]
  refine ⟨List.replicate (S.length + U.length + W.length + H.length + P.length) 0, pa, q, f, ?_, ?_, ?_, ?_, ?_, g rfl, hq, ?_,
    delimited_reads (g (id := id_frag) rfl) k7, h6.imp id fun ⟨x, hx, e⟩ => ⟨x, hx, e⟩, h7.imp id fun ⟨x, _, e⟩ => ⟨x, e⟩, ?_⟩
  · rcases hp.holds.buf with ⟨h1, h2, -⟩ | ⟨junk, h1, -⟩
    · refine ⟨S ++ U ++ W ++ H ++ P, [], hX, ?_⟩
      simp only [St.obj, h1, Option.getD_none]
      simpa using h2
    · refine ⟨S ++ U ++ W ++ H ++ P, t :: junk, hX, ?_⟩
      simp only [St.obj, h1, Option.getD_some]
      simp
  all_goals first
    | (show st.pt.off _ = _; rw [hp.holds.rep]; simp [plen, id_path, id_query, id_frag, id_end]; omega)
    | (intro c hc
       have he : (st.obj dbg).pt.off id_end = ([S, U, W, H, P, pa.map some, q.map some, f.map some].flatten).length := hp.holds.rep 8
       rw [he] at hc
       rcases hp.holds.buf with ⟨h1, -⟩ | ⟨junk, h1, -⟩
       · simp [Obj.byte, St.obj, h1] at hc
       · rcases hp.holds.term with ht | ht
         all_goals
           rw [ht] at h1
           simp only [Obj.byte, St.obj, h1, Option.getD_some, List.getElem?_append_right (Nat.le_refl _), Nat.sub_self, List.getElem?_cons_zero] at hc
           cases hc
         try rfl)
    | (unfold encoded_query; rw [hq]; rfl)

theorem Ranged.base (h : Ranged o A p q f) : SegCtx o id_query A p := by
  obtain ⟨X, rest, hX, hm⟩ := h.mem
  refine ⟨⟨X, _, hX, hm, fun hne => ?_⟩, h.off5, h.off6, by rw [h.off7]; omega⟩
  rcases h.qok with rfl | ⟨x, -, rfl⟩
  · exact absurd h.off7 hne
  · exact ⟨c!"?", _, rfl, by decide⟩

theorem Ranged.view (h : Ranged o A p q f) : SegCtx o id_frag A (p ++ q) := by
  obtain ⟨X, rest, hX, hm⟩ := h.mem
  have e : o.pt.off id_frag = A.length + (p ++ q).length := by rw [h.off7, List.length_append, Nat.add_assoc]
  exact ⟨⟨X, f.map some ++ rest, hX, by rw [hm]; simp, fun hne => absurd e hne⟩, h.off5, e, by omega⟩

theorem Ranged.params {x : Str} (h : Ranged o A p (c!"?" :: x) f) (hx : QChars x) (hn : o.pt.nparam ≠ 0) :
    QCtx o (A ++ p) (libPairs x) f := by
  obtain ⟨X, rest, hX, hm⟩ := h.mem
  refine ⟨⟨X ++ p.map some, rest, by simp [hX], ?_⟩, ?_, ?_, ?_, h.fok, libPairs_pairs hx, by omega⟩
  · rw [libPairs_text hx, hm]; simp
  · rw [h.off6, List.length_append]
  · rw [libPairs_text hx, h.off7, List.length_append]
  · rw [libPairs_text hx, h.off8, List.length_append]

end Url.Props
