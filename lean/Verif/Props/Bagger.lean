import Verif.Spec.Bag
import Verif.Props.Metadata
import Verif.Props.Object
import Verif.Proofs.DigestMap

/-!
# C67: bags
-/

namespace Ocfl

open Spec FS Prog Bagger

/-! ## The source directory in a bag -/

theorem absComps_cons (cwd : Path) (s : Str) (h : startsWith s c!"/" = false) : absComps cwd s = (splitOn '/' s).foldl normStep cwd := by
  unfold absComps
  rw [h]
  rfl

theorem absComps_data (cwd : Path) (p : Str) {w : Str} (hw : SafeName w) : absComps cwd (osPathJoin p w) = absComps cwd p ++ [w] := by
  have hh : ∀ cs, w ≠ '/' :: cs := by
    rintro cs rfl
    exact hw.2.2.2 (by simp)
  have hj : osPathJoin p w = if p = [] ∨ endsWith p c!"/" then p ++ w else p ++ c!"/" ++ w := by
    unfold osPathJoin
    split
    · exact absurd rfl (hh _)
    · rfl
  have hn : ∀ acc : List Str, normStep acc w = acc ++ [w] := by
    intro acc
    unfold normStep
    rw [if_neg (by rintro (h | h); exact hw.1 h; exact hw.2.1 h), if_neg hw.2.2.1]
  have hs : ∀ q : Str, q ≠ [] → startsWith (q ++ w) c!"/" = startsWith q c!"/" := by
    intro q hq
    cases q with
    | nil => exact absurd rfl hq
    | cons c q => simp [startsWith, List.isPrefixOf]
  rw [hj]
  split_ifs with h
  · rcases h with rfl | h
    · have : startsWith w c!"/" = false := by
        cases w with
        | nil => rfl
        | cons c w =>
          have : c ≠ '/' := by rintro rfl; exact hh w rfl
          simp [startsWith, List.isPrefixOf, this.symm]
      rw [List.nil_append, absComps_cons cwd w this, splitOn_of_no_sep hw.2.2.2, absComps_nil]
      exact hn cwd
    · have h' : ['/'] <:+ p := by simpa [endsWith] using h
      obtain ⟨q, rfl⟩ := h'
      unfold absComps
      rw [hs _ (by simp)]
      rw [show q ++ ['/'] ++ w = q ++ '/' :: w by simp, splitOn_append, splitOn_append, splitOn_of_no_sep hw.2.2.2]
      rw [List.foldl_append, List.foldl_append]
      simp only [splitOn, List.foldl_cons, List.foldl_nil, hn]
      congr 1
  · push Not at h
    unfold absComps
    have e : startsWith (p ++ c!"/" ++ w) c!"/" = startsWith p c!"/" := by
      cases hp : p with
      | nil => exact absurd hp h.1
      | cons c q => simp [startsWith, List.isPrefixOf]
    rw [e, show p ++ c!"/" ++ w = p ++ '/' :: w by simp, splitOn_append, splitOn_of_no_sep hw.2.2.2, List.foldl_append]
    simp only [List.foldl_cons, List.foldl_nil, hn]

/-! ## Metadata through a bag -/

theorem get?_tag_ne {k k' : Str} (h : k ≠ k') (x : Option Str) (rest : Dict Str Str) : Dict.get? (tag k x ++ rest) k' = Dict.get? rest k' := by
  unfold tag
  split
  · rfl
  · rfl
  · simp [Dict.get?, h]

/-- The empty string counts as no value. -/
def notEmpty (x : Option Str) : Option Str := x.filter (fun v => !v.isEmpty)

/-- The address that goes through a bag. -/
def mailAddress (x : Option Str) : Option Str := x.filter (fun a => startsWith a c!"mailto:")

theorem get?_tag {k : Str} (x : Option Str) (rest : Dict Str Str) (h : Dict.get? rest k = none) :
    Dict.get? (tag k x ++ rest) k = notEmpty x := by
  unfold tag notEmpty
  split
  · exact h
  · exact h
  · rename_i v hv
    cases v with
    | nil => exact absurd rfl hv
    | cons c v => simp [Dict.get?, Option.filter]

/-- What is read from a bag of a version. -/
theorem bagTags_read {m : VMeta} {tags info : Dict Str Str} (h : bagTags m false = .ok tags)
    (hi : ∀ k ∈ [c!"External-Identifier", c!"External-Description", c!"Contact-Name", c!"Contact-Email"], Dict.get? info k = Dict.get? tags k) :
    Dict.get? info c!"External-Identifier" = notEmpty m.id ∧ Dict.get? info c!"External-Description" = notEmpty m.message ∧
    Dict.get? info c!"Contact-Name" = notEmpty m.name ∧ (Dict.get? info c!"Contact-Email").map (c!"mailto:" ++ ·) = mailAddress m.address := by
  unfold bagTags at h
  simp only [Bool.false_eq_true, if_false] at h
  have h := (Except.ok.inj h).symm
  have hmail : ∀ k, k ≠ c!"Contact-Email" → Dict.get? (mailTag m.address) k = none := by
    intro k hk
    unfold mailTag
    split
    · rfl
    · split
      · simp [Dict.get?, hk.symm]
      · rfl
  rw [List.append_assoc, List.append_assoc] at h
  refine ⟨?_, ?_, ?_, ?_⟩
  · rw [hi _ (by simp), h]
    apply get?_tag
    rw [get?_tag_ne (by decide), get?_tag_ne (by decide)]
    exact hmail _ (by decide)
  · rw [hi _ (by simp), h, get?_tag_ne (by decide)]
    apply get?_tag
    rw [get?_tag_ne (by decide)]
    exact hmail _ (by decide)
  · rw [hi _ (by simp), h, get?_tag_ne (by decide), get?_tag_ne (by decide)]
    apply get?_tag
    exact hmail _ (by decide)
  · rw [hi _ (by simp), h, get?_tag_ne (by decide), get?_tag_ne (by decide), get?_tag_ne (by decide)]
    unfold mailAddress mailTag
    cases m.address with
    | none => rfl
    | some a =>
      dsimp only
      by_cases hp : startsWith a c!"mailto:" = true
      · rw [if_pos hp, Option.filter_some_pos (p := fun a => startsWith a c!"mailto:") hp]
        have hp' : c!"mailto:" <+: a := List.isPrefixOf_iff_prefix.mp hp
        obtain ⟨e, rfl⟩ := hp'
        simp [Dict.get?]
      · rw [if_neg hp, Option.filter_some_neg (p := fun a => startsWith a c!"mailto:") (by simpa using hp)]
        rfl

theorem bagTags_ok {m : VMeta} {tags : Dict Str Str} (h : bagTags m false = .ok tags) : Dict.NK tags ∧
    ∀ e ∈ tags, some e.2 = m.id ∨ some e.2 = m.message ∨ some e.2 = m.name ∨ some (c!"mailto:" ++ e.2) = m.address := by
  unfold bagTags at h
  simp only [Bool.false_eq_true, if_false] at h
  have h := (Except.ok.inj h).symm
  have ht : ∀ k x, tag k x = [] ∨ ∃ v, x = some v ∧ tag k x = [(k, v)] := by
    intro k x
    unfold tag
    split
    · exact .inl rfl
    · exact .inl rfl
    · exact .inr ⟨_, rfl, rfl⟩
  have ha : mailTag m.address = [] ∨ ∃ e, m.address = some (c!"mailto:" ++ e) ∧ mailTag m.address = [(c!"Contact-Email", e)] := by
    unfold mailTag
    cases m.address with
    | none => exact .inl rfl
    | some a =>
      dsimp only
      split_ifs with hp
      · have hp' : c!"mailto:" <+: a := List.isPrefixOf_iff_prefix.mp hp
        obtain ⟨e, rfl⟩ := hp'
        exact .inr ⟨e, rfl, by simp⟩
      · exact .inl rfl
  rw [h]
  rcases ht c!"External-Identifier" m.id with h1 | ⟨i, h1', h1⟩ <;> rcases ht c!"External-Description" m.message with h2 | ⟨d, h2', h2⟩ <;>
    rcases ht c!"Contact-Name" m.name with h3 | ⟨n, h3', h3⟩ <;> rcases ha with h4 | ⟨e, h4', h4⟩ <;> rw [h1, h2, h3, h4] <;>
    refine ⟨by unfold Dict.NK; simp, ?_⟩ <;> simp_all

/-- A version that was extracted: the directory above the destination was there. -/
theorem extract_parent {E : Env} {objdir version dstdir : Str} {s s' : FS} {md : VMeta}
    (hr : run (extract E objdir version dstdir) s = (s', .ok md)) : look s (dstParent E dstdir) = some .dir := by
  unfold extract at hr
  obtain ⟨s1, r, h1, hr⟩ := run_bind_inv hr
  rw [run_look] at h1
  obtain ⟨rfl, _⟩ := Prod.mk.inj h1
  obtain ⟨s2, dst, h2, _⟩ := run_bind_inv hr
  unfold extractDst at h2
  dsimp only at h2
  obtain ⟨s0, pbase, h3, _⟩ := run_bind_inv h2
  rw [run_look] at h3
  obtain ⟨_, h3⟩ := Prod.mk.inj h3
  obtain ⟨rfl, hd⟩ := openObj_ok h3
  exact hd

theorem notEmpty_some {v : Str} (h : v ≠ []) : notEmpty (some v) = some v := by
  cases v with
  | nil => exact absurd rfl h
  | cons c v => rfl

/-- The bag that a version is exported to has the files of the version and what was said about it. -/
theorem exported {B : Bagit} (hB : BagitLaws B) {E : Env} (hlib : E.lib.Lawful) (hhash : HashLib E.raw) (hword : WordClass E.isWord)
    (hcwd : ∀ w ∈ E.cwd, SafeName w) {objdir dst version id : Str} {versions : List (Tree × VBlock)} {s s1 : FS}
    (h : DatedHistory E (absComps E.cwd objdir) id versions s) (hno : NoCollision E.raw (InTrees (versions.map Prod.fst)))
    (hlen : versions.length ≤ 99999) {k : Nat} {t : Tree} {b : VBlock} (hk : versions[k]? = some (t, b))
    (hversion : version = styleName none (k + 1) ∨ (version = c!"head" ∧ k + 1 = versions.length))
    (hp : Portable id b) (hout : ¬ absComps E.cwd objdir <+: absComps E.cwd dst) {md : VMeta}
    (hr : exportBag B E objdir version dst false s = (s1, .ok md)) :
    s1.WF ∧ (∀ q, ¬ absComps E.cwd dst <+: q → look s1 q = look s q) ∧
    (∀ r x, FileBelow s1 (absComps E.cwd dst ++ [c!"data"]) r x ↔ t r x) ∧
    ∃ info, B.read s1 (absComps E.cwd dst) = .ok (true, info) ∧ Dict.get? info c!"External-Identifier" = some id ∧
      Dict.get? info c!"External-Description" = b.message ∧ Dict.get? info c!"Contact-Name" = b.user.bind (·.name) ∧
      (Dict.get? info c!"Contact-Email").map (c!"mailto:" ++ ·) = b.user.bind (·.address) := by
  unfold exportBag at hr
  split at hr
  · cases hr
  rename_i s0 md0 hx
  unfold bagExtractedVersion at hr
  split at hr
  · cases hr
  rename_i s1' hmk
  cases hr
  split at hmk
  · cases hmk
  rename_i tags htags
  obtain ⟨dv, recs, rl, hs, hlast, _, _⟩ := dated_sound hlib hhash hword hcwd h hno hlen
  have hvac : Vacant s (absComps E.cwd dst) := by
    by_contra hn
    obtain ⟨e, he⟩ := (C20_refuses (E := E) hs.wf (objdir := objdir) (version := version) hn).1
    rw [he] at hx
    cases hx
  have hk' : (versions.map Prod.fst)[k]? = some t := by rw [List.getElem?_map, hk]; rfl
  obtain ⟨s0', md', hx', hfiles, hframe⟩ := hs.extract hlib hcwd hno hk' (by rw [List.length_map]; exact hversion) hout (extract_parent hx) hvac
  rw [hx] at hx'
  cases hx'
  have hmd := C76 hlib hhash hword hcwd h hno hlen hk hversion hx
  have hklt : k < versions.length := by
    by_contra hc
    rw [List.getElem?_eq_none (by omega)] at hk
    cases hk
  have hset := hs.setup hlib (version := version) (k := k) (by rw [List.length_map]; exact hklt) (by rw [List.length_map]; exact hversion) hlast
  obtain ⟨rl', hlast', hd0, _⟩ := hs.last
  rw [hlast] at hlast'
  cases hlast'
  have hd := hd0.sorted
  have hcp : ∀ c ∈ listed rl.inv.sorted.manifestD, ∃ ws, LogicalPath ws c := by
    intro c hc
    rw [hd.parsed.good.manifestD] at hc
    obtain ⟨d, hl⟩ := Inv.mem_listed.mp hc
    obtain ⟨v, ws, b, _, _, h3, h4, _⟩ := hd.segs hl
    exact ⟨_, by simp, h3, h4⟩
  obtain ⟨hw0, _, _, _, _, _, _, _, _, _, _, _, _, hext⟩ := run_extract hlib hcwd hs.wf hout (plain_of_setup hlib hset hcp) hx
  obtain ⟨hnk, htv⟩ := bagTags_ok htags
  have hone : ∀ e ∈ tags, OneLine e.2 := by
    intro e he
    rcases htv e he with h1 | h1 | h1 | h1 <;> rw [hmd] at h1
    · cases h1; exact hp.id.1
    · exact (hp.message _ h1.symm).1
    · cases hu : b.user with
      | none => rw [hu] at h1; cases h1
      | some u =>
        rw [hu] at h1
        obtain ⟨n, hn, h2, _⟩ := (hp.user u hu).1
        have h1 : some e.2 = u.name := h1
        rw [hn] at h1
        cases h1
        exact h2
    · cases hu : b.user with
      | none => rw [hu] at h1; cases h1
      | some u =>
        rw [hu] at h1
        have h1 : some (c!"mailto:" ++ e.2) = u.address := h1
        obtain ⟨e', he', h2⟩ := (hp.user u hu).2 _ h1.symm
        have := List.append_cancel_left he'
        rw [this]
        exact h2
  obtain ⟨hw1, hfr, hfb, info, hread, hinfo⟩ := hB.makes hw0 hext.2.root hnk hone hmk
  obtain ⟨i1, i2, i3, i4⟩ := bagTags_read htags hinfo
  refine ⟨hw1, fun q hq => (hfr q hq).trans (hframe q hq), fun r x => (hfb r x).trans (hfiles r x), info, hread, ?_, ?_, ?_, ?_⟩
  · rw [i1, hmd]; exact notEmpty_some hp.id.2
  · rw [i2, hmd]
    show notEmpty b.message = _
    cases hm : b.message with
    | none => rfl
    | some m => exact notEmpty_some (hp.message m hm).2
  · rw [i3, hmd]
    show notEmpty (b.user.bind (·.name)) = _
    cases hu : b.user with
    | none => rfl
    | some u =>
      obtain ⟨n, hn, _, h2⟩ := (hp.user u hu).1
      show notEmpty u.name = u.name
      rw [hn]
      exact notEmpty_some h2
  · rw [i4, hmd]
    show mailAddress (b.user.bind (·.address)) = _
    cases hu : b.user with
    | none => rfl
    | some u =>
      show mailAddress u.address = u.address
      cases ha : u.address with
      | none => rfl
      | some a =>
        obtain ⟨e, rfl, _⟩ := (hp.user u hu).2 a ha
        exact Option.filter_some_pos (p := fun a => startsWith a c!"mailto:") (List.isPrefixOf_iff_prefix.mpr (List.prefix_append _ _))

/-- What `bag_as_source` gives, with a creation time from the command line. -/
theorem bagAsSource_read {B : Bagit} {cwd : Path} {srcbag : Str} {s : FS} {info : Dict Str Str} (hread : B.read s (absComps cwd srcbag) = .ok (true, info))
    {c : Str} (hc : c ≠ []) :
    bagAsSource B cwd srcbag { created := some c } s = .ok (
      { id := Dict.get? info c!"External-Identifier", created := some c,
        message := Dict.get? info c!"External-Description", name := Dict.get? info c!"Contact-Name",
        address := (Dict.get? info c!"Contact-Email").map (c!"mailto:" ++ ·) }, osPathJoin srcbag c!"data") := by
  unfold bagAsSource
  rw [hread]
  dsimp only
  have e1 : ∀ k f, fill none info k f = (Dict.get? info k).map f := by
    intro k f
    unfold fill isSet
    simp only [Bool.false_eq_true, if_false]
    cases Dict.get? info k <;> rfl
  have e2 : fill (some c) info c!"Bagging-Date" (fun v => v ++ c!"T00:00:00Z") = some c := by
    unfold fill
    rw [if_pos]
    cases c with
    | nil => exact absurd rfl hc
    | cons x c => rfl
  rw [e1, e1, e1, e1, e2]
  simp only [Option.map_id_fun', id]

/-- The block that is made from what was said about a version. -/
theorem asDict_block {b : VBlock} {id c now : Str} (hc : c ≠ []) (hp : Portable id b) :
    VMeta.asDict now { id := some id, created := some c, message := b.message, name := b.user.bind (·.name), address := b.user.bind (·.address) } =
      { created := some c, message := b.message, user := b.user } := by
  unfold VMeta.asDict
  cases c with
  | nil => exact absurd rfl hc
  | cons x c =>
    cases hu : b.user with
    | none => simp
    | some u =>
      obtain ⟨n, hn, _⟩ := (hp.user u hu).1
      cases u
      simp_all

theorem timestamp_ne {c : Str} (h : Timestamp c) : c ≠ [] := by
  rintro rfl
  obtain ⟨x, clk, fr, zone, nl, _, _, _, hz, _, he⟩ := h
  have hz0 : zone = [] := by
    have := congrArg List.length he
    simp only [List.length_nil, List.length_append] at this
    exact List.length_eq_zero_iff.mp (by omega)
  subst hz0
  rcases hz with h | ⟨sign, hh, mm, hs, _, _, _, _, _, h⟩
  · cases h
  · rcases hs with rfl | rfl <;> cases h

/-- **C67** (partial): a version is exported as a bag, and the bag is imported as a new object, with a creation time from the command
line. The new object has the identifier of the old one, its version is made of the files of the exported version, with its message, user
name and address. Missing: metadata that does not go through a bag, see `C67_violated_address` and `Portable`, and updates with a bag
of another object, see `C67_violated_update`. -/
theorem C67_partial {B : Bagit} (hB : BagitLaws B) {E : Env} (hlib : E.lib.Lawful) (hhash : HashLib E.raw) (hword : WordClass E.isWord)
    (hcwd : ∀ w ∈ E.cwd, SafeName w) {objdir dst version id : Str} {versions : List (Tree × VBlock)} {s s1 : FS}
    (h : DatedHistory E (absComps E.cwd objdir) id versions s) (hno : NoCollision E.raw (InTrees (versions.map Prod.fst)))
    (hlen : versions.length ≤ 99999) {k : Nat} {t : Tree} {b : VBlock} (hk : versions[k]? = some (t, b))
    (hversion : version = styleName none (k + 1) ∨ (version = c!"head" ∧ k + 1 = versions.length))
    (hp : Portable id b) (hout : ¬ absComps E.cwd objdir <+: absComps E.cwd dst) {md : VMeta}
    (hr : exportBag B E objdir version dst false s = (s1, .ok md))
    -- the bag may have been moved to another place
    {s2 s3 : FS} (hw2 : s2.WF) (hsame : ∀ q, absComps E.cwd dst <+: q → look s2 q = look s1 q)
    {now c : Str} (hc : Timestamp c) {o : Obj} (ho : GoodSettings { o with id := some id }) (hnames : NamesAllowed o t) {r0 : Path} {x0 : Bytes} (hne : t r0 x0)
    {objdir2 : Str} (hvac : Vacant s2 (absComps E.cwd objdir2)) {inv : Inv}
    (hi : createFromBag B E now o { created := some c } dst (some objdir2) s2 = (s3, .ok inv)) :
    (o.id = none ∨ o.id = some id) ∧
    ∃ t', (∀ r x, t' r x ↔ t r x) ∧
      DatedHistory E (absComps E.cwd objdir2) id [(t', { created := some c, message := b.message, user := b.user })] s3 := by
  obtain ⟨hw1, _, hfb, info, hread, i1, i2, i3, i4⟩ := exported hB hlib hhash hword hcwd h hno hlen hk hversion hp hout hr
  rw [← hB.local_ hsame] at hread
  have hfb2 : ∀ r x, FileBelow s2 (absComps E.cwd (osPathJoin dst c!"data")) r x ↔ t r x := by
    intro r x
    rw [absComps_data E.cwd dst (by decide : SafeName c!"data"), ← hfb]
    unfold FileBelow
    rw [hsame _ (by rw [List.append_assoc]; exact List.prefix_append _ _)]
  have hne' := timestamp_ne hc
  unfold createFromBag at hi
  rw [bagAsSource_read hread hne', i1, i2, i3, i4] at hi
  dsimp only at hi
  rw [asDict_block hne' hp] at hi
  have hgood : GoodMeta (some { created := some c, message := b.message, user := b.user }) := by
    refine ⟨⟨_, rfl, c, rfl, hc⟩, ?_, ?_⟩
    · rintro b' u hb' hu
      cases hb'
      obtain ⟨n, hn, _⟩ := (hp.user u hu).1
      exact ⟨n, hn⟩
    · rintro b' hb'
      cases hb'
      rfl
  have main : ∀ o' : Obj, o' = { o with id := some id } →
      run (create E o' (osPathJoin dst c!"data") (some { created := some c, message := b.message, user := b.user }) (some objdir2)) s2 = (s3, .ok inv) →
      ∃ t', (∀ r x, t' r x ↔ t r x) ∧
      DatedHistory E (absComps E.cwd objdir2) id [(t', { created := some c, message := b.message, user := b.user })] s3 := by
    rintro o' rfl hrun
    refine ⟨_, hfb2, .create hw2 ho hgood rfl rfl hvac ⟨r0, x0, (hfb2 _ _).mpr hne⟩ ?_ hrun⟩
    intro hn r x hx
    exact hnames hn r x ((hfb2 _ _).mp hx)
  cases hid : o.id with
  | none =>
    rw [hid] at hi
    exact ⟨.inl rfl, main _ rfl hi⟩
  | some i =>
    rw [hid] at hi
    dsimp only at hi
    split_ifs at hi with he
    · cases hi
    · push Not at he
      subst he
      refine ⟨.inr rfl, main o ?_ hi⟩
      cases o
      simp_all

/-- The same for the import as the next version of an object, its own history being `olds`. -/
theorem C67_update_partial {B : Bagit} (hB : BagitLaws B) {E : Env} (hlib : E.lib.Lawful) (hhash : HashLib E.raw) (hword : WordClass E.isWord)
    (hcwd : ∀ w ∈ E.cwd, SafeName w) {objdir dst version id : Str} {versions : List (Tree × VBlock)} {s s1 : FS}
    (h : DatedHistory E (absComps E.cwd objdir) id versions s) (hno : NoCollision E.raw (InTrees (versions.map Prod.fst)))
    (hlen : versions.length ≤ 99999) {k : Nat} {t : Tree} {b : VBlock} (hk : versions[k]? = some (t, b))
    (hversion : version = styleName none (k + 1) ∨ (version = c!"head" ∧ k + 1 = versions.length))
    (hp : Portable id b) (hout : ¬ absComps E.cwd objdir <+: absComps E.cwd dst) {md : VMeta}
    (hr : exportBag B E objdir version dst false s = (s1, .ok md))
    {s2 s3 : FS} (hsame : ∀ q, absComps E.cwd dst <+: q → look s2 q = look s1 q) {objdir2 id2 : Str} {olds : List (Tree × VBlock)}
    (h2 : DatedHistory E (absComps E.cwd objdir2) id2 olds s2)
    {now c : Str} (hc : Timestamp c) {o : Obj} (ho : o.digestAlgorithm = c!"sha512" ∨ o.digestAlgorithm = c!"sha256")
    (hnames : NamesAllowed o t) {inv : Inv}
    (hi : updateFromBag B E now o { created := some c } dst objdir2 s2 = (s3, .ok (some inv))) :
    ∃ t', (∀ r x, t' r x ↔ t r x) ∧
      DatedHistory E (absComps E.cwd objdir2) id2 (olds ++ [(t', { created := some c, message := b.message, user := b.user })]) s3 := by
  obtain ⟨hw1, _, hfb, info, hread, i1, i2, i3, i4⟩ := exported hB hlib hhash hword hcwd h hno hlen hk hversion hp hout hr
  rw [← hB.local_ hsame] at hread
  have hfb2 : ∀ r x, FileBelow s2 (absComps E.cwd (osPathJoin dst c!"data")) r x ↔ t r x := by
    intro r x
    rw [absComps_data E.cwd dst (by decide : SafeName c!"data"), ← hfb]
    unfold FileBelow
    rw [hsame _ (by rw [List.append_assoc]; exact List.prefix_append _ _)]
  have hne' := timestamp_ne hc
  unfold updateFromBag at hi
  rw [bagAsSource_read hread hne', i1, i2, i3, i4] at hi
  dsimp only at hi
  rw [asDict_block hne' hp] at hi
  have hgood : GoodMeta (some { created := some c, message := b.message, user := b.user }) := by
    refine ⟨⟨_, rfl, c, rfl, hc⟩, ?_, ?_⟩
    · rintro b' u hb' hu
      cases hb'
      obtain ⟨n, hn, _⟩ := (hp.user u hu).1
      exact ⟨n, hn⟩
    · rintro b' hb'
      cases hb'
      rfl
  refine ⟨_, hfb2, .update h2 ho hgood rfl ?_ hi⟩
  intro hn r x hx
  exact hnames hn r x ((hfb2 _ _).mp hx)

/-- A bag that names another object is refused by the creation of an object with a given identifier, and nothing is written. -/
theorem C67_refuses {B : Bagit} {E : Env} {now : Str} {o : Obj} {m : VMeta} {srcbag : Str} {objdir : Option Str} {s : FS}
    {info : Dict Str Str} {i i' : Str} (ho : o.id = some i) (hm : m.id = none) (hread : B.read s (absComps E.cwd srcbag) = .ok (true, info))
    (hi : Dict.get? info c!"External-Identifier" = some i') (hne : i ≠ i') :
    createFromBag B E now o m srcbag objdir s = (s, .error .exception) := by
  unfold createFromBag bagAsSource
  rw [hread]
  dsimp only
  unfold fill
  rw [hm, hi]
  simp [isSet, ho, hne]

/-- A bag that is not valid is refused, and nothing is written. -/
theorem C67_invalid {B : Bagit} {E : Env} {now : Str} {o : Obj} {m : VMeta} {srcbag : Str} {s : FS}
    {info : Dict Str Str} (hread : B.read s (absComps E.cwd srcbag) = .ok (false, info)) :
    (∀ objdir, createFromBag B E now o m srcbag objdir s = (s, .error .baggerError)) ∧
    ∀ objdir, updateFromBag B E now o m srcbag objdir s = (s, .error .baggerError) := by
  constructor <;> intro objdir
  · unfold createFromBag bagAsSource
    rw [hread]
  · unfold updateFromBag bagAsSource
    rw [hread]

end Ocfl
