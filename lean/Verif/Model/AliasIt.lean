import Verif.Model.Alias
import Verif.Model.ItOp

/-!
The edits through iterators of `Verif.Model.ItOp`, with an argument that may be a part of the url's own buffer as in
`Verif.Model.Alias`.
-/

namespace Url.Alias

/-- `impl/url_base.ipp:1340-1499`: an edit whose argument is the part of the url's own buffer at `own`, or elsewhere. -/
def runIt (e : ItOp) (own : Option (Nat × Nat)) : M SegIt :=
  match e with
  | .erase pos => Base.seg_erase pos
  | .erase_range first last => Base.seg_erase_range first last
  | .insert pos s => seg_insert pos ⟨s, own⟩
  | .insert_encoded pos s => seg_insert_encoded pos ⟨s, own⟩
  | .replace pos s => seg_replace pos ⟨s, own⟩
  | .replace_encoded pos s => seg_replace_encoded pos ⟨s, own⟩

/-- With an argument elsewhere this is the model of the other files. -/
theorem runIt_none (e : ItOp) : runIt e none = Url.runIt e := by cases e <;> rfl

end Url.Alias
