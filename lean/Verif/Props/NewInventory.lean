import Verif.Proofs.FirstVersion
import Verif.Proofs.Recode
import Verif.Props.InventoryValidator
import Verif.Props.ExampleObject

/-!
# C27: the inventory of a new object passes the library's own validation
-/

namespace Ocfl

open Spec FS Prog Ocfl.Inv

/-- An inventory that is in order passes the validation, also if its own specification version is asked for. -/
theorem Parsed.accepted {inv : Inv} {alg : Str} {m : DigestMap} {vs : Dict Str VBlock} {style : Option Nat} {n : Nat}
    (h : Parsed inv alg m vs style n) {v : Str} (hv : v ∈ supported) (ht : inv.type = some (typeUri v)) {force : Option Str}
    (hf : force = none ∨ force = some v) (isWord : Char → Bool) (ds : Str) :
    ValidInventory false force inv.toJson ∧ Accepts isWord false ds force inv.toJson := by
  have hval : ValidInventory false force inv.toJson := by
    rcases hf with rfl | rfl
    · exact h.good.valid
    · obtain ⟨a, cd, m', vs', st, sty, k, hr⟩ := h.good.valid
      exact ⟨a, cd, m', vs', st, sty, k, hr.force (by rw [member_toJson]; simp [Inv.fields, ht]) hv⟩
  exact ⟨hval, (C37 (Json.Writable.wf (Inv.writable_toJson h.good.keys))).mpr hval⟩

/-- **C27**: the inventory that `create` makes (and writes, if there is an object directory) for a
source directory with at least one file, with metadata that has a time stamp, obeys the rules and
passes the validation, both in general and for the specification version of the settings. The
settings may be any supported specification version, SHA-512 or SHA-256, a content directory that is
a name, any normalisation, de-duplication and known fixity algorithms. Missing from the full
statement: file names with newlines if paths are not normalised, see `C27_violated_newline`, a
content directory that is not a name, see `C27_violated_contentDirectory`, and the other digest
algorithms, see `C27_violated_algorithm`. -/
theorem C27_partial {E : Env} (hhash : HashLib E.raw) {o : Obj} {srcdir : Str} {metadata : Option VBlock} {objdir : Option Str}
    {s s' : FS} (hw : s.WF) {inv : Inv} (ho : GoodSettings o) (hmeta : GoodMeta metadata)
    (hfile : ∃ r b, FileBelow s (absComps E.cwd srcdir) r b) (hnames : NamesAllowed o (FileBelow s (absComps E.cwd srcdir)))
    (hr : run (create E o srcdir metadata objdir) s = (s', .ok inv)) {force : Option Str}
    (hf : force = none ∨ force = some o.specVersion) (ds : Str) :
    ValidInventory false force inv.toJson ∧ Accepts E.isWord false ds force inv.toJson := by
  obtain ⟨src, nv, hp, rfl, _, _⟩ := create_inv hr
  obtain ⟨nv0, srcs, hff⟩ := prepareFirst_ok hw ho hmeta hp
  have hsrc := hff.source
  rw [hff.src_eq] at hsrc
  obtain ⟨h1, h2⟩ := hff.parsed hhash ho (hsrc.ne_nil hfile) (hsrc.newlines hnames)
  exact h1.accepted ho.specVersion h2 hf _ _

theorem demoMeta_good : GoodMeta (some demoMeta) where
  created := ⟨_, rfl, _, rfl, ⟨2020, 1, 1, 0, 0, 0⟩, c!"2020-01-01T00:00:00", [], c!"Z", [], ⟨by decide, by decide, by decide, ⟨31, Or.inl ⟨by decide, rfl⟩, by decide⟩, by decide, by decide, by decide⟩, by
    refine ⟨c!"2020", c!"01", c!"01", c!"00", c!"00", c!"00", by decide, by decide, by decide, by decide⟩, by simp, Or.inl rfl, Or.inl rfl, by decide⟩
  user := by rintro b u hb hu; cases hb; cases hu
  noState := by rintro b hb; cases hb; rfl

theorem demoObj_good : GoodSettings demoObj where
  id := by decide
  specVersion := by decide
  algorithm := Or.inr rfl
  contentDirectory := by decide
  fixity := by rintro l hl; cases hl

/-- Every hypothesis holds for the example. -/
example : demoFS.WF ∧ GoodSettings demoObj ∧ GoodMeta (some demoMeta) ∧
    (∃ r b, FileBelow demoFS (absComps demoEnv.cwd c!"src") r b) ∧
    NamesAllowed demoObj (FileBelow demoFS (absComps demoEnv.cwd c!"src")) ∧
    ∃ inv, run (create demoEnv demoObj c!"src" (some demoMeta) (some c!"obj")) demoFS = (demoMade, .ok inv) :=
  ⟨demoFS_wf, demoObj_good, demoMeta_good, ⟨[c!"a.txt"], [1, 2, 3], by decide, by decide +kernel⟩,
    (fun h => by cases h), succeeded_ok (by decide +kernel)⟩

/-! ## Where the code does not do it -/

/-- Is the inventory made, and refused by the validation? -/
def refused (o : Obj) (metadata : Option VBlock) (s : FS) : Bool :=
  match run (create demoEnv o c!"src" metadata (some c!"obj")) s with
  | (_, .ok inv) =>
    match IV.validate demoWord false c!"1.1" none inv.toJson with
    | .ok (_, false, _) => true
    | _ => false
  | _ => false

theorem refused_spec {o : Obj} {metadata : Option VBlock} {s : FS} (h : refused o metadata s = true) :
    ∃ s' inv, run (create demoEnv o c!"src" metadata (some c!"obj")) s = (s', .ok inv) ∧
      ¬ Accepts demoEnv.isWord false c!"1.1" none inv.toJson := by
  unfold refused at h
  split at h
  · rename_i s' inv hrun
    refine ⟨s', inv, hrun, ?_⟩
    rintro ⟨res, es, hv⟩
    have hv : IV.validate demoWord false c!"1.1" none inv.toJson = _ := hv
    rw [hv] at h
    cases h
  · cases h

/-- A directory with one file, with a newline at the start of its name. -/
def newlineFS : FS := [([c!"w"], .dir), ([c!"w", c!"src"], .dir), ([c!"w", c!"src", c!"\na"], .file [1])]

/-- **C27** fails for a file name that starts with a newline, if paths are not normalised. -/
theorem C27_violated_newline : newlineFS.WF ∧ GoodSettings { demoObj with norm := none } ∧ GoodMeta (some demoMeta) ∧
    ∃ s' inv, run (create demoEnv { demoObj with norm := none } c!"src" (some demoMeta) (some c!"obj")) newlineFS = (s', .ok inv) ∧
      ¬ Accepts demoEnv.isWord false c!"1.1" none inv.toJson :=
  ⟨⟨by decide, by decide, by decide, by decide⟩, ⟨by decide, by decide, Or.inr rfl, by decide, by rintro l hl; cases hl⟩,
    demoMeta_good, refused_spec (by decide +kernel)⟩

/-- **C27** fails for a content directory that is not a name. -/
theorem C27_violated_contentDirectory : ∃ s' inv,
    run (create demoEnv { demoObj with contentDirectory := c!"a/b" } c!"src" (some demoMeta) (some c!"obj")) demoFS = (s', .ok inv) ∧
      ¬ Accepts demoEnv.isWord false c!"1.1" none inv.toJson := refused_spec (by decide +kernel)

/-- **C27** fails for digest algorithms other than SHA-512 and SHA-256: the library makes objects with
them that it does not accept. -/
theorem C27_violated_algorithm : ∃ s' inv,
    run (create demoEnv { demoObj with digestAlgorithm := c!"md5" } c!"src" (some demoMeta) (some c!"obj")) demoFS = (s', .ok inv) ∧
      ¬ Accepts demoEnv.isWord false c!"1.1" none inv.toJson := refused_spec (by decide +kernel)

/-- The time stamp is needed: `create` also works without metadata. -/
example : ∃ s' inv, run (create demoEnv demoObj c!"src" none (some c!"obj")) demoFS = (s', .ok inv) ∧
    ¬ Accepts demoEnv.isWord false c!"1.1" none inv.toJson := refused_spec (by decide +kernel)

/-- A file is needed: `create` also works for an empty directory. -/
example : ∃ s' inv, run (create demoEnv demoObj c!"src" (some demoMeta) (some c!"obj"))
      [([c!"w"], .dir), ([c!"w", c!"src"], .dir)] = (s', .ok inv) ∧
    ¬ Accepts demoEnv.isWord false c!"1.1" none inv.toJson := refused_spec (by decide +kernel)

end Ocfl
