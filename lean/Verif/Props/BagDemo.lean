import Verif.Props.Bagger
import Verif.Props.ExampleBag

/-!
# C67: examples, and where the property fails
-/

namespace Ocfl

open Spec FS Prog Bagger

theorem ok_of_snd {α β : Type} {r : β × Py α} {a : α} (h : r.2 = .ok a) : r = (r.1, .ok a) := by rw [← h]

/-- Was a version made? -/
def gaveInv (r : FS × Py (Option Inv)) : Bool :=
  match r.2 with
  | .ok x => x.isSome
  | .error _ => false

theorem gaveInv_ok {r : FS × Py (Option Inv)} (h : gaveInv r = true) : ∃ inv, r = (r.1, .ok (some inv)) := by
  obtain ⟨s, r⟩ := r
  cases r with
  | error e => cases h
  | ok x =>
    cases x with
    | none => cases h
    | some i => exact ⟨i, rfl⟩

/-- The head of the object of `demo_dated` as a bag. -/
def bagFS : FS := (exportBag plainBagit demoEnv c!"obj" c!"head" c!"bag" false talkFS).1

def bagTime : Str := c!"2022-01-02T02:02:02Z"

theorem bagTime_timestamp : Timestamp bagTime := by
  refine ⟨⟨2022, 1, 2, 2, 2, 2⟩, c!"2022-01-02T02:02:02", [], c!"Z", [], ⟨by decide, by decide, by decide, ⟨31, .inl ⟨by decide, rfl⟩, by decide⟩, by decide, by decide, by decide⟩, ?_,
    by simp, .inl rfl, .inl rfl, by decide⟩
  exact ⟨c!"2022", c!"01", c!"02", c!"02", c!"02", c!"02", by decide, by decide, by decide, by decide⟩

theorem talkMeta_portable : Portable c!"info:x" talkMeta where
  id := ⟨⟨by decide, by decide, by decide, by decide⟩, by decide⟩
  message := by rintro m h; cases h; exact ⟨⟨by decide, by decide, by decide, by decide⟩, by decide⟩
  user := by
    rintro u h; cases h
    exact ⟨⟨_, rfl, ⟨by decide, by decide, by decide, by decide⟩, by decide⟩, by
      rintro a h; cases h; exact ⟨c!"n@x", rfl, by decide, by decide, by decide, by decide⟩⟩

theorem bag_exported : exportBag plainBagit demoEnv c!"obj" c!"head" c!"bag" false talkFS = (bagFS, .ok
    { id := some c!"info:x", created := some c!"2021-01-03T04:05:06Z", message := some c!"second", name := some c!"N",
      address := some c!"mailto:n@x", version := some c!"v2" }) :=
  ok_of_snd (by decide +kernel)

/-- The bag as a new object. -/
def bagCopy : FS × Py Inv :=
  createFromBag plainBagit demoEnv c!"2022-01-02T02:02:02Z" { demoObj with id := none } { created := some bagTime } c!"bag" (some c!"copy") bagFS

theorem bagFS_wf : bagFS.WF :=
  (exported plainBagit_laws demoEnv_lawful demoRaw_hash demoWord_class demoEnv_cwd demo_dated demo_noCollision (by decide) (k := 1) rfl
    (.inr ⟨rfl, rfl⟩) talkMeta_portable (by decide +kernel) bag_exported).1

/-- Another object beside the bag. -/
def strangeObj : Obj := { demoObj with id := some c!"info:y" }

theorem strangeObj_good : GoodSettings strangeObj where
  id := by decide
  specVersion := by decide
  algorithm := Or.inr rfl
  contentDirectory := by decide
  fixity := by rintro l hl; cases hl

def strangeFS : FS := (run (create demoEnv strangeObj c!"src" (some demoMeta) (some c!"other")) bagFS).1

/-- The tags of the bag. -/
def bagInfo : Dict Str Str :=
  [(c!"External-Identifier", c!"info:x"), (c!"External-Description", c!"second"), (c!"Contact-Name", c!"N"), (c!"Contact-Email", c!"n@x")]

theorem bag_facts : succeeded bagCopy = true ∧ look bagFS (absComps demoEnv.cwd c!"copy") = none ∧
    look bagFS (absComps demoEnv.cwd c!"other") = none ∧ look bagFS (absComps demoEnv.cwd c!"src" ++ [c!"a.txt"]) = some (.file [9]) ∧
    plainBagit.read bagFS (absComps demoEnv.cwd c!"bag") = .ok (true, bagInfo) ∧
    succeeded (run (create demoEnv strangeObj c!"src" (some demoMeta) (some c!"other")) bagFS) = true ∧
    plainBagit.read strangeFS (absComps demoEnv.cwd c!"bag") = .ok (true, bagInfo) ∧
    gaveInv (updateFromBag plainBagit demoEnv bagTime demoObj {} c!"bag" c!"other" strangeFS) = true := by
  decide +kernel

/-- The bag is imported: the new object has one version, with the files, the message and the user of the second version of the old one. -/
theorem bagCopy_dated : ∃ t', (∀ r x, t' r x ↔ FileBelow demoChanged (absComps demoEnv.cwd c!"src") r x) ∧
    DatedHistory demoEnv (absComps demoEnv.cwd c!"copy") c!"info:x"
      [(t', { created := some bagTime, message := some c!"second", user := some { name := some c!"N", address := some c!"mailto:n@x" } })] bagCopy.1 := by
  obtain ⟨inv, hi⟩ := succeeded_ok bag_facts.1
  exact (C67_partial plainBagit_laws demoEnv_lawful demoRaw_hash demoWord_class demoEnv_cwd demo_dated demo_noCollision (by decide) (k := 1) rfl
    (.inr ⟨rfl, rfl⟩) talkMeta_portable (by decide +kernel) bag_exported bagFS_wf (fun _ _ => rfl) bagTime_timestamp
    (o := { demoObj with id := none }) demoObj_good
    (fun h => by cases h) (r0 := [c!"a.txt"]) (x0 := [9]) ⟨by decide, by decide +kernel⟩ (vacant_of bagFS_wf bag_facts.2.1) hi).2

/-- **C67 fails**: the bag names the object `info:x`, and it is taken as the next version of the object `info:y`. -/
theorem C67_violated_update : ∃ (s : FS) (versions : List (Tree × VBlock)) (info : Dict Str Str) (s' : FS) (inv : Inv),
    DatedHistory demoEnv (absComps demoEnv.cwd c!"other") c!"info:y" versions s ∧
    plainBagit.read s (absComps demoEnv.cwd c!"bag") = .ok (true, info) ∧ Dict.get? info c!"External-Identifier" = some c!"info:x" ∧
    updateFromBag plainBagit demoEnv bagTime demoObj {} c!"bag" c!"other" s = (s', .ok (some inv)) := by
  obtain ⟨inv, hr⟩ := succeeded_ok (r := run (create demoEnv strangeObj c!"src" (some demoMeta) (some c!"other")) bagFS)
    bag_facts.2.2.2.2.2.1
  have h0 : DatedHistory demoEnv (absComps demoEnv.cwd c!"other") c!"info:y" [(FileBelow bagFS (absComps demoEnv.cwd c!"src"), demoMeta)] strangeFS :=
    .create bagFS_wf strangeObj_good demoMeta_good rfl rfl (vacant_of bagFS_wf bag_facts.2.2.1)
      ⟨[c!"a.txt"], [9], by decide, bag_facts.2.2.2.1⟩ (fun h => by cases h) hr
  obtain ⟨inv', hx⟩ := gaveInv_ok (r := updateFromBag plainBagit demoEnv bagTime demoObj {} c!"bag" c!"other" strangeFS)
    bag_facts.2.2.2.2.2.2.2
  exact ⟨strangeFS, _, bagInfo, _, inv', h0, bag_facts.2.2.2.2.2.2.1, rfl, hx⟩

/-- Metadata with an address that is not an e-mail address. -/
def orcidMeta : VBlock :=
  { created := some c!"2021-01-03T04:05:06Z", message := some c!"first", user := some { name := some c!"N", address := some c!"https://orcid.org/0000-0001" } }

def orcidFS : FS := (run (create demoEnv demoObj c!"src" (some orcidMeta) (some c!"obj")) demoFS).1

def orcidBag : FS := (exportBag plainBagit demoEnv c!"obj" c!"head" c!"bag" false orcidFS).1

def orcidCopy : FS × Py Inv :=
  createFromBag plainBagit demoEnv bagTime { demoObj with id := none } { created := some bagTime } c!"bag" (some c!"copy") orcidBag

theorem orcid_facts :
    (exportBag plainBagit demoEnv c!"obj" c!"head" c!"bag" false orcidFS).2 = .ok
      { id := some c!"info:x", created := some c!"2021-01-03T04:05:06Z", message := some c!"first", name := some c!"N",
        address := some c!"https://orcid.org/0000-0001", version := some c!"v1" } ∧
    succeeded orcidCopy = true ∧
    (run (extract demoEnv c!"copy" c!"head" c!"out") orcidCopy.1).2 = .ok
      { id := some c!"info:x", created := some bagTime, message := some c!"first", name := some c!"N", address := none, version := some c!"v1" } := by
  decide +kernel

/-- **C67 fails**: an address that is not an e-mail address is lost on the way through a bag. -/
theorem C67_violated_address :
    (exportBag plainBagit demoEnv c!"obj" c!"head" c!"bag" false orcidFS).2 = .ok
      { id := some c!"info:x", created := some c!"2021-01-03T04:05:06Z", message := some c!"first", name := some c!"N",
        address := some c!"https://orcid.org/0000-0001", version := some c!"v1" } ∧
    (∃ inv, orcidCopy = (orcidCopy.1, .ok inv)) ∧
    (run (extract demoEnv c!"copy" c!"head" c!"out") orcidCopy.1).2 = .ok
      { id := some c!"info:x", created := some bagTime, message := some c!"first", name := some c!"N", address := none, version := some c!"v1" } :=
  ⟨orcid_facts.1, succeeded_ok orcid_facts.2.1, orcid_facts.2.2⟩

/-- `C67_refuses`: a bag of `info:x` for the object `info:z`. -/
example : createFromBag plainBagit demoEnv bagTime { demoObj with id := some c!"info:z" } {} c!"bag" (some c!"copy") bagFS = (bagFS, .error .exception) :=
  C67_refuses rfl rfl (i' := c!"info:x")
    bag_facts.2.2.2.2.1 rfl (by decide)

end Ocfl
