import Verif.Model.Main
/-!
The flag `-v` is only read where text is printed.
-/

namespace Pdf

theorem getObjectF_verbose (file xref sh ext) (a b : Bool) (rs) (n) : getObjectF ⟨file,xref,sh,ext,some a⟩ rs n  = getObjectF ⟨file,xref,sh,ext,some b⟩ rs n := rfl

theorem resolve_verbose (file xref sh ext) (a b : Bool) : ∀ f, resolve ⟨file,xref,sh,ext,some a⟩ f  = resolve ⟨file,xref,sh,ext,some b⟩ f
  | 0 => rfl
  | f + 1 => by
    funext seen n
    simp only [resolve, resolve_verbose file xref sh ext a b f, getObjectF_verbose file xref sh ext a b]

theorem resolver_verbose (file xref sh ext) (a b : Bool) (f) : resolver ⟨file,xref,sh,ext,some a⟩ f  = resolver ⟨file,xref,sh,ext,some b⟩ f := by
  funext n; simp only [resolver, resolve_verbose file xref sh ext a b f]

theorem getObject_verbose (file xref sh ext) (a b : Bool) (f) : getObject ⟨file,xref,sh,ext,some a⟩ f  = getObject ⟨file,xref,sh,ext,some b⟩ f := by
  funext n; simp only [getObject, resolver_verbose file xref sh ext a b f, getObjectF_verbose file xref sh ext a b]

theorem extractAll_verbose (file xref sh ext) (a b : Bool) (f ft) : extractAll ⟨file,xref,sh,ext,some a⟩ f ft = extractAll ⟨file,xref,sh,ext,some b⟩ f ft := by
  have : extractEntry ⟨file,xref,sh,ext,some a⟩ f ft = extractEntry ⟨file,xref,sh,ext,some b⟩ f ft := by
    funext x
    simp only [extractEntry, resolver_verbose file xref sh ext a b f, getObject_verbose file xref sh ext a b f, debug]
  funext l
  simp only [extractAll, this]

section
variable (file : Bytes) (ext : Ext) (a b : Bool) (f : Nat)

theorem streamSections_verbose (index w0 w1 w2) : ∀ k, streamSections ⟨file, ext, some a⟩ (fun env => resolver env f) index w0 w1 w2 k =
    streamSections ⟨file, ext, some b⟩ (fun env => resolver env f) index w0 w1 w2 k
  | 0 => rfl
  | k + 1 => by
    funext i d
    simp only [streamSections, LS.env, resolver_verbose _ _ _ _ a b, streamSections_verbose index w0 w1 w2 k]

theorem streamBody_verbose : streamBody ⟨file, ext, some a⟩ (fun env => resolver env f) = streamBody ⟨file, ext, some b⟩ (fun env => resolver env f) := by
  funext o t off
  simp only [streamBody, streamIndex, LS.env, resolver_verbose _ _ _ _ a b, streamSections_verbose file ext a b f]

theorem loadXref_verbose : ∀ fx, loadXref ⟨file, ext, some a⟩ (fun env => getObject env f) (fun env => resolver env f) fx =
    loadXref ⟨file, ext, some b⟩ (fun env => getObject env f) (fun env => resolver env f) fx
  | 0 => rfl
  | fx + 1 => by
    funext off seen
    simp only [loadXref, LS.env, resolver_verbose _ _ _ _ a b, getObject_verbose _ _ _ _ a b, loadXref_verbose fx, streamBody_verbose file ext a b f]

theorem loadAll_verbose (fx) : ∀ l, loadAll ⟨file, ext, some a⟩ (fun env => getObject env f) (fun env => resolver env f) fx l =
    loadAll ⟨file, ext, some b⟩ (fun env => getObject env f) (fun env => resolver env f) fx l
  | [] => rfl
  | o :: l => by
    simp only [loadAll, loadXref_verbose file ext a b, loadAll_verbose fx l]

theorem findObjectsLoop_verbose : ∀ k, findObjectsLoop ⟨file, ext, some a⟩ (fun env => resolver env f) k =
    findObjectsLoop ⟨file, ext, some b⟩ (fun env => resolver env f) k
  | 0 => rfl
  | k + 1 => by
    funext i d
    simp only [findObjectsLoop, LS.env, resolver_verbose _ _ _ _ a b, findObjectsLoop_verbose k]

theorem repairAll_verbose : ∀ l, repairAll ⟨file, ext, some a⟩ l = repairAll ⟨file, ext, some b⟩ l
  | [] => rfl
  | (n, e) :: t => by
    simp only [repairAll, repairAll_verbose t]; rfl

theorem load_verbose (ord fx pw) : load ⟨file, ext, some a⟩ ord f fx pw = load ⟨file, ext, some b⟩ ord f fx pw := by
  have h1 : setPassword ⟨file, ext, some a⟩ (fun env => resolver env f) = setPassword ⟨file, ext, some b⟩ (fun env => resolver env f) := by
    funext ord pw s
    simp only [setPassword, LS.env, resolver_verbose _ _ _ _ a b]
  simp only [load, loadF, loadPlan, findObjects, findObjectsLoop_verbose file ext a b, loadAll_verbose file ext a b, repairAll_verbose file ext a b, h1]

theorem parseBody_verbose (order ft fx pw) : parseBody file order ext (some a) f fx ft pw = parseBody file order ext (some b) f fx ft pw := by
  simp only [parseBody, debug, load_verbose file ext a b, LS.env, extractAll_verbose _ _ _ _ a b]

end
end Pdf
