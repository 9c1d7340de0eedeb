import Verif.Model.Crypt
/-!
Files whose crypt filters can be read in any order.
-/

namespace Pdf.Spec
open Pdf

/-- The crypt filters of the encryption dictionary, if there are any, have one entry per name, and none of
them has its method or its length in another object. `rs` is how references resolve, `trailer` the
trailer. -/
def DirectFilters (rs : SecHandler → Resolver) (trailer : Dict) : Prop :=
  ∀ sh s enc s' sh1 s1 cf s1', Dict.getDict (rs sh) trailer b!"Encrypt" s = .ok (some enc, s') → Dict.getDict (rs sh1) enc b!"CF" s1 = .ok (some cf, s1') →
    (cf.map (·.1)).Nodup ∧ ∀ k (d : Dict), (k, .dict d) ∈ cf → ∀ n g, d.get? b!"CFM" ≠ some (.ref n g) ∧ d.get? b!"Length" ≠ some (.ref n g)

end Pdf.Spec
