import Verif.Model.UrlBase

/-!
Model of `basic_url.hpp`.

The constructors are `Base.empty` and `Base.make`. The copy and move constructors (`basic_url.hpp:56-64`) do not
initialize the base class `storage_member`, which has no default constructor: they cannot be instantiated.
-/

namespace Url.Base

/-- `basic_url.hpp:66-71` `operator=` -/
def assign (_src : St) : M Unit := pure ()

end Url.Base
