import Verif.Props.Secret
import Verif.Lemmas.RunsExample
/-!
C82: owner passwords.
-/

namespace Pdf.Props
open Pdf Pdf.Spec St

section
variable {ext : Ext} {P : Bytes} {us : List Update} {c : Secrecy} {skip : Option Int} {enc : Dict} {d : StdDict} {owner user : Bytes}

/-- Passwords count up to their 32nd byte. -/
theorem UserPassword.padded (md5 : Bytes → Bytes) (rc4 : Bytes → Bytes → Bytes) (h : (owner ++ padString).take 32 = (user ++ padString).take 32) (hp : UserPassword md5 rc4 d user) :
    UserPassword md5 rc4 d owner := by
  unfold UserPassword stdU stdKey at *
  rw [h]
  exact hp

/-- **C82, refuted** for every document with an owner password that is not also a user password: with it nothing is read, `Parse` returns the
password error. -/
theorem C82_refused {sys : Sys} {v : Bool} (hf : sys.input = some (docText P us)) (hc : ∀ h, sys.canCreate h = true)
    (hd : Document (Reading.secret ext.md5 rc4 ext.toCodecs c skip) P us) (hr : RightTables (docText P us) P.length us) (ht : Typed us) (he : EncryptAt us enc skip) (hs : StdEntries us enc d)
    (_ : Protected ext.md5 rc4 d owner user) (hne : ¬ UserPassword ext.md5 rc4 d owner) {f fx ft : Nat} (h1 : 1 ≤ f) (hfx : us.length ≤ fx) :
    (parse sys ext (some v) f fx ft owner).outcome = .returned (some .passwordError) ∧ (parse sys ext (some v) f fx ft owner).out = {} :=
  C76_wrong hf hc hd hr ht he hs hne h1 hfx

set_option maxRecDepth 100000 in
theorem secret_protected : Protected Concrete.ext.md5 rc4 secretStd b!"own3" b!"pw" ∧ ¬ UserPassword Concrete.ext.md5 rc4 secretStd b!"own3" :=
  ⟨⟨by decide +kernel, secret_document.2.2.2.2.2.1⟩, by rw [UserPassword]; decide +kernel⟩

/-- **C82, refuted** A document with the owner password `own3` and the user password `pw`: with the user password its URI is in the report, with the owner
password `Parse` returns the password error and writes nothing. -/
theorem C82_false : ∃ (P : Bytes) (us : List Update) (enc : Dict) (d : StdDict) (c : Secrecy), Document (Reading.secret Concrete.ext.md5 rc4 Concrete.ext.toCodecs c (some 3)) P us ∧
    RightTables (docText P us) P.length us ∧ EncryptAt us enc (some 3) ∧ StdEntries us enc d ∧ Protected Concrete.ext.md5 rc4 d b!"own3" b!"pw" ∧
    ∀ (sys : Sys) (v : Bool), sys.input = some (docText P us) → (∀ h, sys.canCreate h = true) →
      (∃ F, ∀ f fx ft, F ≤ f → F ≤ fx → F ≤ ft → (parse sys Concrete.ext (some v) f fx ft b!"pw").outcome = .returned none ∧
        ∃ a b, (parse sys Concrete.ext (some v) f fx ft b!"pw").out.urls = a ++ (b!"http://x\n" ++ b)) ∧
      ∀ f fx ft, 1 ≤ f → 1 ≤ fx → (parse sys Concrete.ext (some v) f fx ft b!"own3").outcome = .returned (some .passwordError) ∧ (parse sys Concrete.ext (some v) f fx ft b!"own3").out = {} := by
  obtain ⟨h1, h2, h3, h4, h5, h6, -, h8, h9, h10⟩ := secret_document
  refine ⟨_, _, _, _, _, h1, h2, h4, h5, secret_protected.1, fun sys v hf hc => ⟨?_, fun f fx ft k1 k2 => C82_refused hf hc h1 h2 h3 h4 h5 secret_protected.1 secret_protected.2 k1 k2⟩⟩
  obtain ⟨r, F, k1, k2, -, k4⟩ := C76_report_partial (v := v) hf hc h1 h2 h3 h4 h5 h6 h8 h9 h10
  refine ⟨F, fun f fx ft a b c => ?_⟩
  rw [k1 f fx ft a b c]
  obtain ⟨view, hv, -⟩ := C75_means [secretUpdate]
  exact ⟨k2, (k4 view hv 2 secretUpdate.parts[1] (by rfl) [(b!"URI", .str b!"http://x")] (by decide)).1 _ rfl⟩

/-- **C82, partial** A document whose owner password and user password are the same (the first 32 bytes count), as in a document that is saved without an owner password, is read as it is meant with the owner
password. Missing: all other owner passwords (`C82_false`), and what is missing from `C76_read_partial`. -/
theorem C82_partial (hd : Document (Reading.secret ext.md5 rc4 ext.toCodecs c skip) P us) (hr : RightTables (docText P us) P.length us) (ht : Typed us) (he : EncryptAt us enc skip) (hs : StdEntries us enc d)
    (hp : Protected ext.md5 rc4 d owner user) (hsame : (owner ++ padString).take 32 = (user ++ padString).take 32) (hk : Keys ext.md5 enc d owner c) (verbose : Option Bool) (ord : Order) {f fx : Nat} (hf : 1 ≤ f)
    (hfx : us.length ≤ fx) :
    ∃ ls, load ⟨docText P us, ext, verbose⟩ ord f fx owner LS.init = .ok (none, ls) ∧
      (∀ n p, meant us n = some p → ∀ f s, ∃ s', getObject (ls.env ⟨docText P us, ext, verbose⟩) f n s = .ok (p.obj, s')) ∧
      (∀ n, meant us n = none → ∀ f s, getObject (ls.env ⟨docText P us, ext, verbose⟩) f n s = .ok (⟨n, 0, .null, none⟩, s)) :=
  C76_read_partial hd hr ht he hs (UserPassword.padded _ _ hsame hp.u) hk verbose ord hf hfx

/-- Passwords can be the same: any password, any MD5 and cipher. -/
example (md5 : Bytes → Bytes) (rc4 : Bytes → Bytes → Bytes) (pw : Bytes) : ∃ d : StdDict, d.r = 2 ∧ d.n = 5 ∧ Protected md5 rc4 d pw pw := by
  let d0 : StdDict := ⟨1, 2, 5, stdO md5 rc4 ⟨1, 2, 5, [], [], -4, b!"id", true⟩ pw pw, [], -4, b!"id", true⟩
  exact ⟨{ d0 with u := stdU md5 rc4 d0 pw }, rfl, rfl, rfl, (if_pos (rfl : (2 : Int) = 2)).mpr rfl⟩

set_option maxRecDepth 100000 in
/-- The hypotheses of `C51_partial` and `C70_partial`, for the encrypted document. -/
example (password : Bytes) (ext : Ext) : Tame (docText docHead [secretUpdate]) ∧ MapsEnd (docText docHead [secretUpdate]) ext (some true) password ∧
    (docText docHead [secretUpdate]).length < 2 ^ 63 :=
  ⟨tame_of_gentle (by decide +kernel), mapsEnd_of_none (by decide +kernel) _ _ _, by decide +kernel⟩

end
end Pdf.Props
