import Verif.Proofs.Metadata
import Verif.Props.ExampleObject
import Verif.Props.NoDifference
import Verif.Proofs.ExtractSame

/-!
# C76: metadata of versions
-/

namespace Ocfl

open Spec FS Prog

/-- What `extract` reads at its start. -/
theorem Sound.setup {E : Env} (hlib : E.lib.Lawful) {s : FS} {objdir version : Str} {dv : Str} {trees : List Tree} {recs : List Rec}
    (h : Sound E s (absComps E.cwd objdir) dv trees recs) {k : Nat} (hklt : k < trees.length)
    (hversion : version = styleName none (k + 1) ∨ (version = c!"head" ∧ k + 1 = trees.length)) {rl : Rec} (hlast : recs.getLast? = some rl) :
    extractSetup E objdir version s = .ok (absComps E.cwd objdir, rl.inv.sorted, styleName none (k + 1)) := by
  obtain ⟨rl', hlast', hd0, hstored, _, _⟩ := h.last
  rw [hlast] at hlast'
  cases hlast'
  have hd := hd0.sorted
  unfold extractSetup openObj fswOpen
  rw [if_pos (by unfold FS.isdir; rw [h.isDir]; rfl)]
  dsimp only
  rw [parse_written hlib hd0.parsed hstored.1]
  dsimp only
  have hvd := versionDirectories_names (inv := rl.inv.sorted) hd.parsed.numbered.styleOK hd.parsed.numbered.limit
    hd.parsed.numbered.keys hd.parsed.numbered.names
  rcases hversion with rfl | ⟨rfl, hkn⟩
  · rw [if_neg (by intro he; have := congrArg List.head? he; rw [styleName_head] at this; cases this), hvd]
    dsimp only
    rw [if_pos]
    refine List.mem_map.mpr ⟨k + 1, ?_, rfl⟩
    rw [mem_upTo]
    omega
  · rw [if_pos rfl, hd.parsed.good.head, hkn]
    rfl

/-- **C76**: after any history of an object, extracting one of its versions returns the identifier of the object and the
time, message, user name and address that were given when this version was made. -/
theorem C76 {E : Env} (hlib : E.lib.Lawful) (hhash : HashLib E.raw) (hword : WordClass E.isWord)
    (hcwd : ∀ w ∈ E.cwd, SafeName w) {objdir dstdir version id : Str} {versions : List (Tree × VBlock)} {s s' : FS}
    (h : DatedHistory E (absComps E.cwd objdir) id versions s) (hno : NoCollision E.raw (InTrees (versions.map Prod.fst)))
    (hlen : versions.length ≤ 99999) {k : Nat} {t : Tree} {b : VBlock} (hk : versions[k]? = some (t, b))
    (hversion : version = styleName none (k + 1) ∨ (version = c!"head" ∧ k + 1 = versions.length)) {md : VMeta}
    (hr : run (extract E objdir version dstdir) s = (s', .ok md)) :
    md = { id := some id, created := b.created, message := b.message, name := b.user.bind (·.name),
           address := b.user.bind (·.address), version := some (styleName none (k + 1)) } := by
  obtain ⟨dv, recs, rl, hs, hlast, hid, hm⟩ := dated_sound hlib hhash hword hcwd h hno hlen
  have hklt : k < versions.length := by
    by_contra hc
    rw [List.getElem?_eq_none (by omega)] at hk
    cases hk
  have hset := hs.setup hlib (version := version) (k := k) (by rw [List.length_map]; exact hklt) (by rw [List.length_map]; exact hversion) hlast
  have hmd := extract_metadata hr hset
  have hmeta := hm k t b hk
  obtain ⟨rl', hlast', hd0, _⟩ := hs.last
  rw [hlast] at hlast'
  cases hlast'
  rw [← metaAt_sorted hd0.parsed] at hmeta
  unfold metaAt at hmeta
  cases hg : Dict.get? rl.inv.sorted.versionsD (styleName none (k + 1)) with
  | none => rw [hg] at hmeta; cases hmeta
  | some vb =>
    rw [hg] at hmeta
    have hb := Option.some.inj hmeta
    have hid' : rl.inv.sorted.id = some id := hid
    have hv : rl.inv.sorted.versions = some rl.inv.sorted.versionsD := by
      rw [hd0.parsed.sorted.good.versionsD]; exact hd0.parsed.sorted.good.versions
    unfold versionMetadata VMeta.fromInventory at hmd
    simp only [hv, Option.orElse_some, hg, hid'] at hmd
    have hmd := Except.ok.inj hmd
    subst hb
    rw [← hmd]
    cases vb with
    | mk created message user state =>
      cases created <;> cases message <;> cases user with
      | none => rfl
      | some u =>
        cases u with
        | mk name address => cases name <;> cases address <;> rfl

/-! ## An example -/

def talkMeta : VBlock :=
  { created := some c!"2021-01-03T04:05:06Z", message := some c!"second", user := some { name := some c!"N", address := some c!"mailto:n@x" } }

theorem talkMeta_good : GoodMeta (some talkMeta) where
  created := ⟨_, rfl, _, rfl, ⟨2021, 1, 3, 4, 5, 6⟩, c!"2021-01-03T04:05:06", [], c!"Z", [], ⟨by decide, by decide, by decide, ⟨31, Or.inl ⟨by decide, rfl⟩, by decide⟩, by decide, by decide, by decide⟩, by
    refine ⟨c!"2021", c!"01", c!"03", c!"04", c!"05", c!"06", by decide, by decide, by decide, by decide⟩, by simp, Or.inl rfl, Or.inl rfl, by decide⟩
  user := by rintro b u h hu; cases h; cases hu; exact ⟨_, rfl⟩
  noState := by rintro b h; cases h; rfl

/-- The update of the object with another digest algorithm, a message and a user. -/
def talkUpdate : Prog (Option Inv) :=
  addVersionWithContent demoEnv { demoObj with digestAlgorithm := c!"sha512" } c!"obj" (some c!"src") (some talkMeta) true

def talkFS : FS := (run talkUpdate demoChanged).1

theorem demo_dated : DatedHistory demoEnv (absComps demoEnv.cwd c!"obj") c!"info:x"
    [(FileBelow demoFS (absComps demoEnv.cwd c!"src"), demoMeta), (FileBelow demoChanged (absComps demoEnv.cwd c!"src"), talkMeta)] talkFS := by
  obtain ⟨inv, hr⟩ := succeeded_ok (r := run (create demoEnv demoObj c!"src" (some demoMeta) (some c!"obj")) demoFS) (by decide +kernel)
  have h0 : DatedHistory demoEnv (absComps demoEnv.cwd c!"obj") c!"info:x" [(FileBelow demoFS (absComps demoEnv.cwd c!"src"), demoMeta)] demoMade :=
    .create demoFS_wf demoObj_good demoMeta_good rfl rfl
      ⟨Or.inl (by decide +kernel), fun r hr => look_below_none demoFS_wf (List.prefix_append _ _) (by simpa using hr) (by decide +kernel)⟩
      ⟨[c!"a.txt"], [1, 2, 3], by decide, by decide +kernel⟩ (fun h => by cases h) hr
  obtain ⟨s', inv', hu⟩ := updateVerdict_some (p := talkUpdate) (s := demoChanged) (by decide +kernel)
  have he : talkFS = s' := congrArg Prod.fst hu
  rw [he]
  exact .update (.elsewhere h0 demoChanged_wf demo_apart) (Or.inl rfl) talkMeta_good rfl (fun h => by cases h) hu

/-- What is said about both versions, after the update. -/
example (s' : FS) (md : VMeta) :
    (run (extract demoEnv c!"obj" c!"v1" c!"out") talkFS = (s', .ok md) →
      md = { id := some c!"info:x", created := some c!"2020-01-01T00:00:00Z", version := some c!"v1" }) ∧
    (run (extract demoEnv c!"obj" c!"head" c!"out") talkFS = (s', .ok md) →
      md = { id := some c!"info:x", created := some c!"2021-01-03T04:05:06Z", message := some c!"second", name := some c!"N",
             address := some c!"mailto:n@x", version := some c!"v2" }) :=
  ⟨C76 demoEnv_lawful demoRaw_hash demoWord_class demoEnv_cwd demo_dated demo_noCollision (by decide) (k := 0) rfl (.inl rfl),
    C76 demoEnv_lawful demoRaw_hash demoWord_class demoEnv_cwd demo_dated demo_noCollision (by decide) (k := 1) rfl (.inr ⟨rfl, rfl⟩)⟩

/-- Both extractions succeed. -/
example : succeeded (run (extract demoEnv c!"obj" c!"v1" c!"out") talkFS) = true ∧
    succeeded (run (extract demoEnv c!"obj" c!"head" c!"out") talkFS) = true := by decide +kernel

end Ocfl
