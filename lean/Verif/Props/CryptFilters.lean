import Verif.Props.Crypt
/-!
C42: which filter decrypts what.
-/

namespace Pdf.Props
open Pdf Spec St

/- the order of the loop over crypt filters -/
variable {ord : Order}

/-! ### Named filters -/

/-- what key computation reads -/
def SameKeyData (a b : SecHandler) : Prop :=
  a.o = b.o ∧ a.p = b.p ∧ a.id = b.id ∧ a.r = b.r ∧ a.encryptMetadata = b.encryptMetadata ∧ a.length = b.length ∧ a.key = b.key ∧
  a.streamFilter = b.streamFilter ∧ a.stringFilter = b.stringFilter ∧ a.fileFilter = b.fileFilter

theorem SameKeyData.refl (a : SecHandler) : SameKeyData a a := ⟨rfl, rfl, rfl, rfl, rfl, rfl, rfl, rfl, rfl, rfl⟩

theorem SameKeyData.trans {a b c : SecHandler} (h : SameKeyData a b) (h' : SameKeyData b c) : SameKeyData a c :=
  ⟨h.1.trans h'.1, h.2.1.trans h'.2.1, h.2.2.1.trans h'.2.2.1, h.2.2.2.1.trans h'.2.2.2.1, h.2.2.2.2.1.trans h'.2.2.2.2.1,
   h.2.2.2.2.2.1.trans h'.2.2.2.2.2.1, h.2.2.2.2.2.2.1.trans h'.2.2.2.2.2.2.1, h.2.2.2.2.2.2.2.1.trans h'.2.2.2.2.2.2.2.1,
   h.2.2.2.2.2.2.2.2.1.trans h'.2.2.2.2.2.2.2.2.1, h.2.2.2.2.2.2.2.2.2.trans h'.2.2.2.2.2.2.2.2.2⟩

theorem loadCryptFilter_ret (ext : Ext) (rs : Resolver) (password : Bytes) (sh : SecHandler) (k : Bytes) (e : Obj) :
    Ret (fun sh' => SameKeyData sh' sh ∧ ∀ k', k ≠ k' → sh'.cryptFilters.get? k' = sh.cryptFilters.get? k') (loadCryptFilter ext rs password sh k e) := by
  cases e with
  | dict d =>
    rw [loadCryptFilter]
    repeat' first
      | exact Ret.pure ⟨SameKeyData.refl sh, fun _ _ => rfl⟩
      | exact Ret.pure ⟨SameKeyData.refl sh, fun k' hk => Assoc.get?_set_ne _ _ hk⟩
      | refine Ret.bind' fun _ => ?_
      | split
      | dsimp only
  | _ => exact Ret.pure ⟨SameKeyData.refl sh, fun _ _ => rfl⟩

theorem loadCryptFilters_ret (ext : Ext) (rs : SecHandler → Resolver) (password : Bytes) : ∀ (cf : List (Bytes × Obj)) (sh : SecHandler),
    Ret (fun sh' => SameKeyData sh' sh ∧ ∀ k', k' ∉ cf.map (·.1) → sh'.cryptFilters.get? k' = sh.cryptFilters.get? k') (loadCryptFilters ext rs password cf sh)
  | [], sh => Ret.pure ⟨SameKeyData.refl sh, fun _ _ => rfl⟩
  | (k, e) :: t, sh => by
    rw [loadCryptFilters]
    refine (loadCryptFilter_ret ext (rs sh) password sh k e).bind fun sh1 h1 => (loadCryptFilters_ret ext rs password t sh1).mono fun sh2 h2 => ?_
    refine ⟨h2.1.trans h1.1, fun k' hk' => ?_⟩
    simp only [List.map_cons, List.mem_cons, not_or] at hk'
    rw [h2.2 k' hk'.2, h1.2 k' (Ne.symm hk'.1)]

/-- The filter that a /CF entry with method `m` and key length `n` stands for. -/
def methodFilter (md5 : Bytes → Bytes) (d : StdDict) (password m : Bytes) (n : Nat) : Option CryptFilter :=
  if m = b!"None" then some .none
  else if m = b!"V2" then some (.rc4 (stdKey md5 { d with n := n } password))
  else if m = b!"AESV2" then some (.aes (stdKey md5 { d with n := n } password))
  else none

theorem loadCryptFilters_named {ext : Ext} {rs : SecHandler → Resolver} {password : Bytes} {d : StdDict} {m : Bytes} {l : Option Int} {n : Nat} {f : CryptFilter} {k : Bytes} {cfd : Dict}
    (hm : ∀ sh s, ∃ s', Dict.getName (rs sh) cfd b!"CFM" s = .ok (some m, s')) (hl : ∀ sh s, ∃ s', Dict.getInt (rs sh) cfd b!"Length" s = .ok (l, s'))
    (hn : (n : Int) = l.getD d.n) (hn16 : n ≤ 16) (hf : methodFilter ext.md5 d password m n = some f) :
    ∀ (cf : List (Bytes × Obj)) (sh : SecHandler), (cf.map (·.1)).Nodup → (k, .dict cfd) ∈ cf →
      (sh.o = d.o ∧ sh.p = lowBytes 4 d.p ∧ sh.id = d.id ∧ sh.r = d.r ∧ sh.encryptMetadata = d.encryptMetadata ∧ sh.length = d.n) →
      Ret (fun sh' => sh'.cryptFilters.get? k = some f) (loadCryptFilters ext rs password cf sh)
  | [], _, _, hmem, _ => by cases hmem
  | (k', e) :: t, sh, hnd, hmem, hsh => by
    rw [loadCryptFilters]
    simp only [List.map_cons, List.nodup_cons] at hnd
    rcases List.mem_cons.1 hmem with heq | hmem
    · injection heq with h1 h2
      subst h1 h2
      have hr : Ret (fun sh' => sh'.cryptFilters.get? k = some f) (loadCryptFilter ext (rs sh) password sh k (.dict cfd)) := by
        intro s sh' t' h
        rw [loadCryptFilter] at h
        obtain ⟨s1, h1⟩ := hm sh s
        rw [bind_of_ok h1] at h
        obtain ⟨s2, h2⟩ := hl sh s1
        dsimp only at h
        rw [bind_of_ok h2, hsh.2.2.2.2.2, ← hn] at h
        have hkey := computeKey_ok ext sh { d with n := n } password hn16 hsh.1 hsh.2.1 hsh.2.2.1 hsh.2.2.2.1 hsh.2.2.2.2.1
        rw [show computeKey ext sh password (n : Int) = _ from hkey] at h
        rw [methodFilter] at hf
        split at hf
        · rename_i hc; cases hf; rw [if_pos hc] at h; cases h; exact Assoc.get?_set_self _ _ _
        · rename_i hc
          rw [if_neg hc] at h
          split at hf
          · rename_i hc; cases hf; rw [if_pos hc] at h; cases h; exact Assoc.get?_set_self _ _ _
          · rename_i hc
            rw [if_neg hc] at h
            split at hf
            · rename_i hc; cases hf; rw [if_pos hc] at h; cases h; exact Assoc.get?_set_self _ _ _
            · cases hf
      refine hr.bind fun sh1 h1 => (loadCryptFilters_ret ext rs password t sh1).mono fun sh2 h2 => ?_
      rw [h2.2 k hnd.1, h1]
    · refine (loadCryptFilter_ret ext (rs sh) password sh k' e).bind fun sh1 h1 => loadCryptFilters_named hm hl hn hn16 hf t sh1 hnd.2 hmem ?_
      obtain ⟨h1, -⟩ := h1
      exact ⟨h1.1.trans hsh.1, h1.2.1.trans hsh.2.1, h1.2.2.1.trans hsh.2.2.1, h1.2.2.2.1.trans hsh.2.2.2.1, h1.2.2.2.2.1.trans hsh.2.2.2.2.1,
        h1.2.2.2.2.2.1.trans hsh.2.2.2.2.2⟩

/-- a name entry as the getter reports it -/
def Says (rs : SecHandler → Resolver) (d : Dict) (k : Bytes) (name : Option Bytes) : Prop :=
  ∀ h s, ∃ s', Dict.getName (rs h) d k s = .ok (name, s')

/-- the filter that an entry naming one selects -/
def selected (filters : Assoc Bytes CryptFilter) (default : CryptFilter) : Option Bytes → CryptFilter
  | none => default
  | some n => (filters.get? n).getD default

theorem namedFilter_says {rs : SecHandler → Resolver} {enc : Dict} {k : Bytes} {name : Option Bytes} (h : Says rs enc k name) (sh sh' : SecHandler) (df : CryptFilter) :
    Ret (fun f => f = selected sh.cryptFilters df name) (namedFilter (rs sh') enc sh k df) := by
  intro s f t hr
  rw [namedFilter] at hr
  obtain ⟨s1, h1⟩ := h sh' s
  rw [bind_of_ok h1] at hr
  cases name <;> (cases hr; rfl)

/-- what holds of the handler once filters are set; `keys` are those of /CF -/
def FiltersSet (key : Bytes) (stm str : Option Bytes) (keys : List Bytes) (P : SecHandler → Prop) (sh' : SecHandler) : Prop :=
  sh'.streamFilter = selected sh'.cryptFilters (.rc4 key) stm ∧ sh'.stringFilter = selected sh'.cryptFilters (.rc4 key) str ∧
  sh'.fileFilter = .rc4 key ∧ ∃ sh'', P sh'' ∧ sh'.cryptFilters = sh''.cryptFilters ∧
    (∀ k', k' ∉ keys → sh'.cryptFilters.get? k' = Assoc.get? [(b!"Identity", .none)] k')

theorem setFilters_ret {ext : Ext} {rs : SecHandler → Resolver} {password : Bytes} {enc : Dict} {stm str : Option Bytes}
    (hstm : Says rs enc b!"StmF" stm) (hstr : Says rs enc b!"StrF" str) (heef : Says rs enc b!"EEF" none) (sh : SecHandler) (h4 : sh.r = 4)
    {cf : Option Dict} (hcf : ∀ h s, ∃ s', Dict.getDict (rs h) enc b!"CF" s = .ok (cf, s')) {P : SecHandler → Prop}
    (hP : Ret P (loadCryptFilters ext rs password (ord.visit (cf.getD [])) { sh with
      streamFilter := .rc4 sh.key, stringFilter := .rc4 sh.key, fileFilter := .rc4 sh.key, cryptFilters := [(b!"Identity", .none)] })) :
    Ret (FiltersSet sh.key stm str ((cf.getD []).map (·.1)) P) (setFilters ext rs ord password enc sh) := by
  rw [setFilters]
  dsimp only
  rw [if_pos h4]
  intro s sh' t h
  obtain ⟨s1, h1⟩ := hcf { sh with streamFilter := .rc4 sh.key, stringFilter := .rc4 sh.key, fileFilter := .rc4 sh.key, cryptFilters := [(b!"Identity", .none)] } s
  rw [bind_of_ok h1] at h
  refine Ret.bind (P := fun sh1 => P sh1 ∧ sh1.streamFilter = .rc4 sh.key ∧ sh1.stringFilter = .rc4 sh.key ∧ sh1.fileFilter = .rc4 sh.key ∧
    (∀ k', k' ∉ (cf.getD []).map (·.1) → sh1.cryptFilters.get? k' = Assoc.get? [(b!"Identity", .none)] k'))
    (Q := FiltersSet sh.key stm str ((cf.getD []).map (·.1)) P) ?_ ?_ _ _ _ h
  · intro s a t ha
    have := loadCryptFilters_ret _ _ _ _ _ _ _ _ ha
    exact ⟨hP _ _ _ ha, this.1.2.2.2.2.2.2.2.1, this.1.2.2.2.2.2.2.2.2.1, this.1.2.2.2.2.2.2.2.2.2, fun k' hk => this.2 k' fun hm => hk (((visited ord _).map _).mem_iff.1 hm)⟩
  · rintro sh1 ⟨hp, f1, f2, f3, f4⟩
    refine (namedFilter_says hstm _ _ _).bind fun a ha => ?_
    refine (namedFilter_says hstr _ _ _).bind fun b hb => ?_
    refine (namedFilter_says heef _ _ _).bind fun c hc => ?_
    refine Ret.pure ⟨?_, ?_, ?_, sh1, hp, rfl, f4⟩
    · rw [ha, f1]
    · rw [hb, f2]
    · rw [hc]; exact f3

/-- **C42, partial** When `SetPassword` accepts the password of a revision 4 file:
streams are decrypted with the filter named by /StmF, strings with the one named by /StrF, and a /CF
entry defines the filter it describes; `Identity` (unless redefined) decrypts nothing.
Differences from the standard: without /StmF or /StrF, or when they name no filter, the default is RC4
with the file key, not Identity (`C42_default_false`); /EFF is ignored and embedded files always use
RC4 with the file key (`C42_EFF_false`). -/
theorem C42_named_partial (cfg : Cfg) {rs : Env → Resolver} {ls : LS} {enc : Dict} {d : StdDict}
    (h : Describes (fun sh => rs { ls.env cfg with sh := sh }) ls.trailer enc d) (h4 : d.r = 4) (hu : 16 ≤ d.u.length) {stm str : Option Bytes}
    (hstm : Says (fun sh => rs { ls.env cfg with sh := sh }) enc b!"StmF" stm) (hstr : Says (fun sh => rs { ls.env cfg with sh := sh }) enc b!"StrF" str)
    (heef : Says (fun sh => rs { ls.env cfg with sh := sh }) enc b!"EEF" none)
    {cf : Option Dict} (hcf : ∀ (sh : SecHandler) s, ∃ s', Dict.getDict (rs { ls.env cfg with sh := sh }) enc b!"CF" s = .ok (cf, s'))
    (hnd : ((cf.getD []).map (·.1)).Nodup)
    {password : Bytes} (hp : UserPassword cfg.ext.md5 rc4 d password) {e : Option EncErr} {ls' : LS}
    (hret : setPassword cfg rs ord password ls = .ok (e, ls')) :
    ls'.sh.streamFilter = selected ls'.sh.cryptFilters (.rc4 (stdKey cfg.ext.md5 d password)) stm ∧
    ls'.sh.stringFilter = selected ls'.sh.cryptFilters (.rc4 (stdKey cfg.ext.md5 d password)) str ∧
    ls'.sh.fileFilter = .rc4 (stdKey cfg.ext.md5 d password) ∧
    (∀ (name : Bytes) (cfd : Dict) (m : Bytes) (l : Option Int) (n : Nat) (f : CryptFilter), (name, .dict cfd) ∈ cf.getD [] →
      (∀ (sh : SecHandler) s, ∃ s', Dict.getName (rs { ls.env cfg with sh := sh }) cfd b!"CFM" s = .ok (some m, s')) →
      (∀ (sh : SecHandler) s, ∃ s', Dict.getInt (rs { ls.env cfg with sh := sh }) cfd b!"Length" s = .ok (l, s')) →
      (n : Int) = l.getD d.n → n ≤ 16 → methodFilter cfg.ext.md5 d password m n = some f → ls'.sh.cryptFilters.get? name = some f) ∧
    (b!"Identity" ∉ (cf.getD []).map (·.1) → ls'.sh.cryptFilters.get? b!"Identity" = some .none) := by
  obtain ⟨s', hs⟩ := secInit_run (ext := cfg.ext) h password ls.sh ls.ps
  obtain ⟨b, hb, hiff⟩ := verifyKey_ok cfg.ext d password (shAfter cfg.ext d password ls.sh) h.r_ok.1 (fun _ => hu) rfl rfl rfl rfl
  rw [hb, hiff.2 hp, bind_of_ok (x := St.ofRes (.ok _)) rfl, if_neg (by decide)] at hs
  rw [setPassword, hs] at hret
  cases hx : setFilters cfg.ext (fun sh => rs { ls.env cfg with sh := sh }) ord password enc (shAfter cfg.ext d password ls.sh) s' with
  | ok q =>
    rw [bind_of_ok (a := q.1) (t := q.2) hx] at hret
    cases hret
    have base := setFilters_ret hstm hstr heef (shAfter cfg.ext d password ls.sh) h4 hcf (P := fun _ => True) (fun _ _ _ _ => trivial) s' q.1 q.2 hx
    refine ⟨base.1, base.2.1, base.2.2.1, ?_, ?_⟩
    · intro name cfd m l n f hmem hm hl hn hn16 hf
      have := setFilters_ret hstm hstr heef (shAfter cfg.ext d password ls.sh) h4 hcf
        (P := fun sh' => sh'.cryptFilters.get? name = some f) (loadCryptFilters_named hm hl hn hn16 hf _ _ (((visited ord _).map _).nodup_iff.2 hnd) ((visited ord _).mem_iff.2 hmem)
          ⟨rfl, rfl, rfl, rfl, rfl, rfl⟩) s' q.1 q.2 hx
      obtain ⟨-, -, -, sh'', h1, h2, -⟩ := this
      show q.1.cryptFilters.get? name = _
      rw [h2, h1]
    · intro hid
      obtain ⟨-, -, -, sh'', -, -, h3⟩ := base
      exact h3 _ hid
  | panic w => rw [bind_of_panic hx] at hret; cases hret
  | oof => rw [bind_of_oof hx] at hret; cases hret

theorem directTrailer (cfg : Cfg) (rs : Env → Resolver) (more : Dict) (hmore : Assoc.get? more b!"EncryptMetadata" = none) (o id password : Bytes) :
    ∃ (u : Bytes) (ls : LS), 16 ≤ u.length ∧ Assoc.get? ls.trailer b!"Encrypt" = some (.dict (directEnc 4 4 128 (-4) o u ++ more)) ∧
      Describes (fun sh => rs { ls.env cfg with sh := sh }) ls.trailer (directEnc 4 4 128 (-4) o u ++ more) ⟨4, 4, 16, o, u, -4, id, true⟩ ∧
      UserPassword cfg.ext.md5 rc4 ⟨4, 4, 16, o, u, -4, id, true⟩ password := by
  obtain ⟨u, hu⟩ : ∃ u, u = stdU cfg.ext.md5 rc4 ⟨4, 4, 16, o, [], -4, id, true⟩ password := ⟨_, rfl⟩
  have hul : u.length = 16 := by
    rw [hu, stdU]
    show (if (4 : Int) = 2 then _ else _ : Bytes).length = 16
    rw [if_neg (by decide), foldl_rc4_length, cfg.ext.md5_length]
  have hup : UserPassword cfg.ext.md5 rc4 ⟨4, 4, 16, o, u, -4, id, true⟩ password := by
    rw [UserPassword]
    show if (4 : Int) = 2 then _ else u.take 16 = _
    rw [if_neg (by decide), List.take_of_length_le (by omega), hu]
    exact stdU_u _ _ _ _ _ _ _ _ _ _ _ _
  refine ⟨u, { LS.init with trailer := [(b!"Encrypt", .dict (directEnc 4 4 128 (-4) o u ++ more)), (b!"ID", .arr [.str id])] }, by omega, rfl, ?_, hup⟩
  exact directEnc_describes _ hmore (by decide) (by decide) (by decide) (by decide) (by decide) (by decide) (by decide)

/-- entries of an encryption dictionary that select AES for streams, strings and embedded files -/
def aesMore : Dict :=
  [(b!"CF", .dict [(b!"StdCF", .dict [(b!"CFM", .name b!"AESV2"), (b!"Length", .num (.fin 16))])]), (b!"StmF", .name b!"StdCF"), (b!"StrF", .name b!"StdCF"),
   (b!"EFF", .name b!"StdCF")]

/-- **C42 fails** for embedded files: /EFF is ignored. A file in which all three entries name the same
AES filter has its strings and streams decrypted with AES, and its embedded files with RC4. -/
theorem C42_EFF_false (cfg : Cfg) (rs : Env → Resolver) (hrs : ∀ env n, Total (rs env n)) (o id password : Bytes) :
    ∃ u ls ls' key, Assoc.get? ls.trailer b!"Encrypt" = some (.dict (directEnc 4 4 128 (-4) o u ++ aesMore)) ∧
      setPassword cfg rs ord password ls = .ok (none, ls') ∧ ls'.sh.streamFilter = .aes key ∧ ls'.sh.stringFilter = .aes key ∧
      ls'.sh.fileFilter = .rc4 key := by
  obtain ⟨u, ls, hul, htr, hd, hup⟩ := directTrailer cfg rs aesMore rfl o id password
  have henc : ∀ env s s' enc, Dict.getDict (rs env) ls.trailer b!"Encrypt" s = .ok (some enc, s') → enc = directEnc 4 4 128 (-4) o u ++ aesMore := by
    intro env s s' enc h
    rw [Dict.getDict_direct s htr (by rintro n g ⟨⟩)] at h
    cases h; rfl
  have hcf : ∀ env s, Dict.getDict (rs env) (directEnc 4 4 128 (-4) o u ++ aesMore) b!"CF" s =
      .ok (some [(b!"StdCF", .dict [(b!"CFM", .name b!"AESV2"), (b!"Length", .num (.fin 16))])], s) := fun env s =>
    Dict.getDict_direct s (o := .dict [(b!"StdCF", .dict [(b!"CFM", .name b!"AESV2"), (b!"Length", .num (.fin 16))])]) rfl (by rintro n g ⟨⟩)
  have hlen : ∀ env s, Dict.getInt (rs env) [(b!"CFM", .name b!"AESV2"), (b!"Length", .num (.fin 16))] b!"Length" s = .ok (some 16, s) := fun env s =>
    (Dict.getInt_direct s (o := .num (.fin 16)) rfl (by rintro n g ⟨⟩)).trans (by rw [show Option.map F64.toInt (Obj.asNum? (.num (.fin 16))) = some 16 by decide])
  obtain ⟨e, ls', hret⟩ := C40_partial cfg rs password ls hrs (by
    intro env env' s s' enc h p p' _ t v t' hv
    rw [henc _ _ _ _ h, Dict.getString_direct t (o := .str u) rfl (by rintro n g ⟨⟩)] at hv
    cases hv; omega) (by
    intro env env' s s' enc h t cf t' hc k cfd hm env'' _ _ _ _ v l v' hl
    rw [henc _ _ _ _ h, hcf] at hc
    cases hc
    rcases List.mem_singleton.1 hm with ⟨⟩
    rw [hlen] at hl
    cases hl; decide)
  have he := (C38_accepts cfg hd (fun _ => hul) hup).1 _ _ hret
  obtain ⟨h1, h2, h3, h4, -⟩ := C42_named_partial cfg hd rfl hul (stm := some b!"StdCF") (str := some b!"StdCF")
    (fun h s => ⟨s, Dict.getName_direct s (o := .name b!"StdCF") rfl (by rintro n g ⟨⟩)⟩) (fun h s => ⟨s, Dict.getName_direct s (o := .name b!"StdCF") rfl (by rintro n g ⟨⟩)⟩)
    (fun h s => ⟨s, Dict.getName_none s rfl⟩) (fun h s => ⟨s, hcf _ s⟩) (by simp) hup hret
  have h5 := h4 b!"StdCF" _ b!"AESV2" (some 16) 16 _ (List.mem_singleton.2 rfl) (fun h s => ⟨s, Dict.getName_direct s (o := .name b!"AESV2") rfl (by rintro n g ⟨⟩)⟩)
    (fun h s => ⟨s, hlen _ s⟩) rfl (by omega) rfl
  rw [selected, h5] at h1 h2
  exact ⟨u, ls, ls', _, htr, by rw [hret, he], h1, h2, h3⟩

/-- **C42 fails** for the defaults: without /StmF and /StrF the standard says Identity (no
decryption); here it is RC4 with the file key. -/
theorem C42_default_false (cfg : Cfg) (rs : Env → Resolver) (hrs : ∀ env n, Total (rs env n)) (o id password : Bytes) :
    ∃ u ls ls' key, Assoc.get? ls.trailer b!"Encrypt" = some (.dict (directEnc 4 4 128 (-4) o u ++ [])) ∧
      setPassword cfg rs ord password ls = .ok (none, ls') ∧ ls'.sh.streamFilter = .rc4 key ∧ ls'.sh.stringFilter = .rc4 key := by
  obtain ⟨u, ls, hul, htr, hd, hup⟩ := directTrailer cfg rs [] rfl o id password
  have henc : ∀ env s s' enc, Dict.getDict (rs env) ls.trailer b!"Encrypt" s = .ok (some enc, s') → enc = directEnc 4 4 128 (-4) o u ++ [] := by
    intro env s s' enc h
    rw [Dict.getDict_direct s htr (by rintro n g ⟨⟩)] at h
    cases h; rfl
  have hcf : ∀ env s, Dict.getDict (rs env) (directEnc 4 4 128 (-4) o u ++ []) b!"CF" s = .ok (none, s) := fun env s => Dict.getDict_none s rfl
  obtain ⟨e, ls', hret⟩ := C40_partial cfg rs password ls hrs (by
    intro env env' s s' enc h p p' _ t v t' hv
    rw [henc _ _ _ _ h, Dict.getString_direct t (o := .str u) rfl (by rintro n g ⟨⟩)] at hv
    cases hv; omega) (by
    intro env env' s s' enc h t cf t' hc k cfd hm env'' _ _ _ _ v l v' hl
    rw [henc _ _ _ _ h, hcf] at hc
    cases hc)
  have he := (C38_accepts cfg hd (fun _ => hul) hup).1 _ _ hret
  obtain ⟨h1, h2, -, -, -⟩ := C42_named_partial cfg hd rfl hul (stm := none) (str := none)
    (fun h s => ⟨s, Dict.getName_none s rfl⟩) (fun h s => ⟨s, Dict.getName_none s rfl⟩)
    (fun h s => ⟨s, Dict.getName_none s rfl⟩) (fun h s => ⟨s, hcf _ s⟩) (by simp) hup hret
  exact ⟨u, ls, ls', _, htr, by rw [hret, he], h1, h2⟩

example : ∀ (env : Env) n, Total ((fun _ n => pure (newIndObj n) : Env → Resolver) env n) := fun _ _ => Total.pure _

/-! ### Streams -/

/-- **C42** What the cross reference table marks as not encrypted (cross reference streams, the
encryption dictionary) is read without decryption: the result does not depend on the security
handler. -/
theorem C42_unencrypted (env : Env) (sh : SecHandler) (rs : Resolver) (n : Int) {e : XrefEntry} (he : env.xref.get? n = some e) (hd : e.isEncrypted = false) :
    getObjectF env rs n = getObjectF { env with sh := sh } rs n := by
  have h1 : ∀ v, getStreamF env rs n e v = getStreamF { env with sh := sh } rs n e v := by
    intro v
    rw [getStreamF, getStreamF]
    simp only [streamCrypt, hd, if_true]
  rw [getObjectF, getObjectF, he]
  simp only [h1, hd]
  rfl

/-- **C42** After `Load`, an encryption dictionary that is an indirect object is marked as not
encrypted. -/
theorem C42_encrypt_dictionary (cfg : Cfg) (ord : Order) (f fx : Nat) (password : Bytes) (ls ls' : LS) (err : Option EncErr) (h : load cfg ord f fx password ls = .ok (err, ls'))
    {n g : Int} (ht : Assoc.get? ls'.trailer b!"Encrypt" = some (.ref n g)) {e : XrefEntry} (he : ls'.xref.get? n = some e) : e.isEncrypted = false := by
  rw [load, loadF] at h
  obtain ⟨⟨offsets, objects⟩, l1, -, h⟩ := bind_ok h
  obtain ⟨-, l2, -, h⟩ := bind_ok h
  obtain ⟨-, l3, -, h⟩ := bind_ok h
  obtain ⟨enc, l4, h4, h⟩ := bind_ok h
  injection h4 with h4
  injection h4 with h4 h5
  subst h5 h4
  cases hx : Assoc.get? l3.trailer b!"Encrypt" with
  | none =>
    rw [hx] at h
    cases h
    rw [hx] at ht; cases ht
  | some o =>
    rw [hx] at h
    dsimp only at h
    obtain ⟨_, l5, h5, h⟩ := bind_ok h
    obtain ⟨-, h6, h7⟩ := C39_unchanged cfg _ password _ _ _ h
    rw [h6] at ht
    rw [h7] at he
    have htr : l5.trailer = l3.trailer := by
      rw [markEncrypt.eq_def] at h5
      split at h5
      · split at h5 <;> (cases h5; rfl)
      · cases h5; rfl
    rw [htr, hx] at ht
    cases ht
    rw [markEncrypt.eq_def] at h5
    dsimp only at h5
    split at h5
    · cases h5
      rw [Assoc.get?_set_self] at he
      cases he; rfl
    · rename_i hn
      cases h5
      rw [hn] at he; cases he

/-- **C42** The filter for a stream: the stream filter, or the embedded file filter when /Type says so;
a leading `Crypt` filter overrides it by name (`Identity` without a name) and is removed together with
its parameters. Unknown names fall back to the filter it would have been. -/
theorem C42_stream_filter {rs : Resolver} {sh : SecHandler} {d : Dict} {filters parms : List Obj} {typ : Option Bytes}
    (ht : ∀ s, ∃ s', Dict.getName rs d b!"Type" s = .ok (typ, s')) (s : PS) :
    ∃ dflt, dflt = (if typ = some b!"EmbeddedFile" then sh.fileFilter else sh.streamFilter) ∧
    (filters = [] → ∃ s', streamCrypt rs sh true d filters parms s = .ok ((dflt, [], parms), s')) ∧
    (∀ first, (∀ s, ∃ s', Arr.getName rs filters 0 s = .ok (first, s')) → filters ≠ [] →
      (first ≠ some b!"Crypt" → ∃ s', streamCrypt rs sh true d filters parms s = .ok ((dflt, filters, parms), s')) ∧
      (first = some b!"Crypt" → ∀ pd name, (∀ s, ∃ s', Arr.getDict rs parms 0 s = .ok (pd, s')) → (∀ s, ∃ s', Dict.getName rs (pd.getD []) b!"Name" s = .ok (name, s')) →
        ∃ s', streamCrypt rs sh true d filters parms s = .ok ((selected sh.cryptFilters dflt (some (name.getD b!"Identity")), filters.tail, parms.tail), s'))) := by
  refine ⟨_, rfl, ?_, ?_⟩
  · intro hf
    obtain ⟨s1, h1⟩ := ht s
    refine ⟨s1, ?_⟩
    rw [streamCrypt, if_neg (by decide), bind_of_ok h1, hf]
    rfl
  · intro first hfirst hne
    obtain ⟨s1, h1⟩ := ht s
    obtain ⟨s2, h2⟩ := hfirst s1
    have hl : ¬ filters.length = 0 := fun h => hne (List.length_eq_zero_iff.1 h)
    refine ⟨?_, ?_⟩
    · intro hc
      refine ⟨s2, ?_⟩
      rw [streamCrypt, if_neg (by decide), bind_of_ok h1, if_neg hl, bind_of_ok h2]
      rw [if_neg (by cases first with | none => decide | some b => intro h; exact hc (by rw [← h]; rfl))]
      rfl
    · rintro rfl pd name hpd hname
      obtain ⟨s3, h3⟩ := hpd s2
      obtain ⟨s4, h4⟩ := hname s3
      refine ⟨s4, ?_⟩
      rw [streamCrypt, if_neg (by decide), bind_of_ok h1, if_neg hl, bind_of_ok h2]
      rw [if_pos (show (some b!"Crypt").getD [] = b!"Crypt" from rfl), bind_of_ok h3, bind_of_ok h4, List.drop_one, List.drop_one]
      rfl

/-- A stream with its own crypt filter. -/
example (rs : Resolver) (sh : SecHandler) (s : PS) : ∃ s', streamCrypt rs sh true [] [.name b!"Crypt", .name b!"FlateDecode"] [] s =
    .ok ((selected sh.cryptFilters sh.streamFilter (some b!"Identity"), [.name b!"FlateDecode"], []), s') := by
  obtain ⟨dflt, rfl, -, h⟩ := C42_stream_filter (rs := rs) (sh := sh) (d := []) (filters := [.name b!"Crypt", .name b!"FlateDecode"]) (parms := []) (typ := none)
    (fun s => ⟨s, rfl⟩) s
  exact (h (some b!"Crypt") (fun s => ⟨s, rfl⟩) (by simp)).2 rfl none none (fun s => ⟨s, rfl⟩) (fun s => ⟨s, rfl⟩)

end Pdf.Props
