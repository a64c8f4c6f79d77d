import Verif.Model.Segments

/-!
The calls that edit a segment, given iterators of any origin.
-/

namespace Url

/-- The modifying member functions of the segments of a `url_base`, with their iterators
(`url_base.hpp:1674-1757`). -/
inductive ItOp where
  | erase (pos : SegIt)
  | erase_range (first last : SegIt)
  | insert (pos : SegIt) (s : Str)
  | insert_encoded (pos : SegIt) (s : Str)
  | replace (pos : SegIt) (s : Str)
  | replace_encoded (pos : SegIt) (s : Str)

/-- Run a call that edits a segment. -/
def runIt : ItOp → M SegIt
  | .erase pos => Base.seg_erase pos
  | .erase_range first last => Base.seg_erase_range first last
  | .insert pos s => Base.seg_insert pos s
  | .insert_encoded pos s => Base.seg_insert_encoded pos s
  | .replace pos s => Base.seg_replace pos s
  | .replace_encoded pos s => Base.seg_replace_encoded pos s

end Url
