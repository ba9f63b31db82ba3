import Verif.Proofs.Session
import Verif.Proofs.ExtractOne
import Verif.Props.BagDemo

/-!
# C84: what is done with `ocfl-object.py`
-/

namespace Ocfl

open Spec FS Prog ObjectCli

/-- **C84**: after any number of successful `create`, `build` and `update` commands, with files from directories or bags and with whatever
options, `ocfl-object.py extract` of any version into a new directory ends with exit status 0, names the version, and the files below the destination are
exactly those that were given for this version. Nothing else changes. And `ocfl-object.py validate` says `VALID` exactly if the object was made with
`--spec-version 1.1` (the default) or has at most two versions.

Missing from the full statement: `--address` without `--name` and version 1.0 of the specification, see `C84_violated`; and the exit status of
`validate`, see `C84_violated_status`. -/
theorem C84_partial {B : Bagit} {E : Env} (hE : Libraries E) (hcwd : ∀ w ∈ E.cwd, SafeName w) {objdir id spec : Str} {trees : List Tree} {s : FS}
    (h : Session B E (absComps E.cwd objdir) id spec trees s) (hno : NoCollision E.raw (InTrees trees)) (hlen : trees.length ≤ 99999)
    {now : Str} {c : Common} (hlax : c.laxDigests = false) :
    (∀ k t objver dstdir setDate, trees[k]? = some t → objver = unpaddedName (k + 1) ∨ (objver = c!"head" ∧ k + 1 = trees.length) →
      dstdir ≠ [] → ¬ absComps E.cwd objdir <+: absComps E.cwd dstdir → look s (dstParent E dstdir) = some .dir → Vacant s (absComps E.cwd dstdir) →
      ∃ s', doObjectOperation B E now c (.extract objdir objver dstdir none setDate none) s = (s', .ok (.extracted (some (unpaddedName (k + 1))))) ∧
        (∀ r b, FileBelow s' (absComps E.cwd dstdir) r b ↔ t r b) ∧
        ∀ q, ¬ absComps E.cwd dstdir <+: q → look s' q = look s q) ∧
    (doObjectOperation B E now c (.validate objdir) s = (s, .ok (.verdict true)) ↔ (spec = c!"1.1" ∨ trees.length ≤ 2)) := by
  obtain ⟨recs, rl, hs, hlast, hid⟩ := session_sound hE hcwd h hno hlen
  have hh := session_history h
  constructor
  · intro k t objver dstdir setDate hk hversion hne hout hp hvac
    obtain ⟨s', md, hr, hf, hrest⟩ := hs.extract hE.json hcwd hno hk hversion hout hp hvac
    refine ⟨s', ?_, hf, hrest⟩
    have hklt : k < trees.length := by
      by_contra hc
      rw [List.getElem?_eq_none (by omega)] at hk
      cases hk
    have hmd := versionMetadata_version (extract_metadata hr (hs.setup hE.json hklt hversion hlast))
    show doExtract B E objdir objver dstdir none setDate none s = _
    unfold doExtract
    rw [if_neg (by decide), if_neg (by decide), if_neg hne, hr]
    show (s', Except.ok (Output.extracted md.version)) = _
    rw [hmd]
    rfl
  · have h74 := C74 hE hcwd hh hno hlen (cfg := { lax := c.laxDigests }) hlax
    rw [show c!"0=ocfl_object_1.1" = c!"0=ocfl_object_" ++ c!"1.1" from rfl, hs.declared] at h74
    rw [eq_comm (a := spec), ← h74]
    show (s, _) = (s, _) ↔ _
    cases hv : Validator.validateObject E { lax := c.laxDigests } 0 s objdir with
    | error e => simp
    | ok r =>
      obtain ⟨b, es⟩ := r
      simp

/-- **C84**, one file: `ocfl-object.py extract --logical-path` writes the file that was given under this path, into the destination directory, which may
exist. -/
theorem C84_file {B : Bagit} {E : Env} (hE : Libraries E) (hcwd : ∀ w ∈ E.cwd, SafeName w) {objdir id spec : Str} {trees : List Tree} {s : FS}
    (h : Session B E (absComps E.cwd objdir) id spec trees s) (hno : NoCollision E.raw (InTrees trees)) (hlen : trees.length ≤ 99999)
    {now : Str} {c : Common} {k : Nat} {t : Tree} {objver dstdir : Str} {setDate : Bool} (hk : trees[k]? = some t)
    (hversion : objver = unpaddedName (k + 1) ∨ (objver = c!"head" ∧ k + 1 = trees.length))
    (hout : ¬ absComps E.cwd objdir <+: absComps E.cwd dstdir) (hp : look s (absComps E.cwd (osPathSplit dstdir).1) = some .dir)
    (hdst : look s (absComps E.cwd dstdir) = none ∨ look s (absComps E.cwd dstdir) = some .dir)
    {dirs : Path} {w : Str} {b : Bytes} (hf : t (dirs ++ [w]) b) (hfree : look s (absComps E.cwd dstdir ++ [w]) ≠ some .dir) :
    ∃ s', doObjectOperation B E now c (.extract objdir objver dstdir none setDate (some (pathOf (dirs ++ [w])))) s =
        (s', .ok (.extracted (some (unpaddedName (k + 1))))) ∧
      look s' (absComps E.cwd dstdir ++ [w]) = some (.file b) ∧
      ∀ q, q ≠ absComps E.cwd dstdir → q ≠ absComps E.cwd dstdir ++ [w] → look s' q = look s q := by
  obtain ⟨recs, rl, hs, hlast, hid⟩ := session_sound hE hcwd h hno hlen
  obtain ⟨s', md, hr, hmd, h1, h2⟩ := hs.extractFile hE.json hcwd hno hk hversion hout hp hdst hf hfree
  refine ⟨s', ?_, h1, h2⟩
  have hset : Bagger.isSet (some (pathOf (dirs ++ [w]))) = true := by
    by_contra hc
    rw [Bool.not_eq_true, isSet_iff] at hc
    obtain ⟨rl', _, hd, _⟩ := hs.last
    have hn := (hd.ok t (List.mem_of_getElem? hk)).names _ _ hf
    rcases hc with hc | hc
    · cases hc
    · have hc := Option.some.inj hc
      have hw : w ≠ [] := (hn.2 w (by simp)).1
      have hb : osBasename (pathOf (dirs ++ [w])) = w := by
        rw [← joinWith_eq_pathOf]
        exact osBasename_join (fun x hx' => SafeName.isComp (hn.2 x (by simp [hx']))) (SafeName.isComp (hn.2 w (by simp)))
      rw [hc] at hb
      exact hw (by rw [← hb]; rfl)
  show doExtract B E objdir objver dstdir none setDate _ s = _
  unfold doExtract
  rw [if_pos hset, if_neg (by decide), Option.getD_some, hr]
  show (s', Except.ok (Output.extracted md.version)) = _
  rw [hmd]
  rfl

/-- **C84**, what `update` says: a successful `ocfl-object.py update` names the object and the new version, and then the root inventory has a sidecar for
the algorithm of `--digest` and no other, whatever the algorithm was before. -/
theorem C84_update {B : Bagit} {E : Env} (hE : Libraries E) (hcwd : ∀ w ∈ E.cwd, SafeName w) {objdir id spec : Str} {trees : List Tree} {s s' : FS}
    (h : Session B E (absComps E.cwd objdir) id spec trees s) {now : Str} {c : Common} {a : About} {srcdir srcbag : Option Str} {dir : Path}
    {bagId : Option Str} {out : Output} (hdigest : c.digest = c!"sha512" ∨ c.digest = c!"sha256") (hclock : Timestamp now)
    (hsource : Source B E s a srcdir srcbag dir bagId) (hnames : NamesFor c (FileBelow s dir))
    (hno : NoCollision E.raw (InTrees (trees ++ [FileBelow s dir]))) (hlen : trees.length + 1 ≤ 99999)
    (hr : doObjectOperation B E now c (.update objdir a srcdir srcbag) s = (s', .ok out)) :
    out = .updated (some id) (some (unpaddedName (trees.length + 1))) ∧
      ∀ alg, look s' (absComps E.cwd objdir ++ [c!"inventory.json." ++ alg]) ≠ none ↔ alg = c.digest := by
  have hno' := NoCollision.mono hno (fun b hb => InTrees.append hb)
  obtain ⟨block, src, inv, hblock, hsrc, rfl, hrun⟩ := update_done hclock hsource hr
  subst hsrc
  obtain ⟨recs, rl, hs, hlast, hid⟩ := session_sound hE hcwd h hno' (by omega)
  obtain ⟨r, hinv, halg, hs'⟩ := hs.update hE.json hE.hash (o := object c) hdigest hblock hno' hlen rfl hnames hrun
  have hlast' : (recs ++ [r]).getLast? = some r := by simp
  obtain ⟨r', hl', hd, hst, _⟩ := hs'.last
  rw [hlast'] at hl'
  cases hl'
  have hid' : r.inv.id = some id := by
    rw [(hs'.same r (by simp) rl (List.mem_append_left _ (List.mem_of_getLast? hlast))).1, hid]
  have hhead := hd.parsed.good.head
  rw [List.length_append, List.length_singleton] at hhead
  refine ⟨by rw [← hinv, hid', hhead]; rfl, fun alg => ?_⟩
  have halg : r.alg = c.digest := halg
  have hside : ∀ x, c!"inventory.json." ++ x = sidecarName x := fun x => rfl
  rw [hside]
  constructor
  · intro hl
    rcases hs'.only _ _ hl with ⟨k, _, he⟩ | ⟨_, he | he | ⟨r'', hr'', he⟩⟩
    · have := congrArg List.head? he
      rw [styleName_head] at this
      cases this
    · have := congrArg List.length he
      simp [sidecarName, inventoryFilename] at this
    · have := congrArg List.head? he
      cases this
    · rw [hlast'] at hr''
      cases hr''
      rw [← halg]
      exact List.append_cancel_left he
  · rintro rfl
    obtain ⟨_, d, _, hl⟩ := hst
    rw [← halg, hl]
    simp

/-- **C84**, commands that only look: `show`, `validate` and `create` without `--objdir` change nothing, whatever they say. -/
theorem C84_looks {B : Bagit} {E : Env} {now : Str} {c : Common} {s : FS} :
    (∀ objdir, (doObjectOperation B E now c (.show_ objdir) s).1 = s) ∧ (∀ objdir, (doObjectOperation B E now c (.validate objdir) s).1 = s) ∧
    ∀ a srcdir srcbag, (doObjectOperation B E now c (.create none a srcdir srcbag) s).1 = s := by
  have hand : ∀ {α : Type} (f : α → Py Output) (r : FS × Py α), (andPrint f r).1 = r.1 := by
    rintro α f ⟨s, r⟩
    cases r <;> rfl
  have hcreate : ∀ o src block, (run (create E o src block none) s).1 = s := by
    intro o src block
    unfold create
    cases hp : prepareFirst E o src block s with
    | error e => rw [run_bind_error (s1 := s) (e := e) (by rw [run_look, hp])]
    | ok r => rw [run_bind_ok (s1 := s) (a := r) (by rw [run_look, hp])]; rfl
  refine ⟨fun _ => rfl, fun _ => rfl, fun a srcdir srcbag => ?_⟩
  show (doCreate B E now c none a srcdir srcbag s).1 = s
  unfold doCreate
  rw [hand]
  cases srcbag with
  | none =>
    cases srcdir with
    | none => rfl
    | some d => exact hcreate _ _ _
  | some bag =>
    dsimp only
    unfold Bagger.createFromBag
    cases hb : Bagger.bagAsSource B E.cwd bag (metadata a) s with
    | error e => rfl
    | ok r =>
      obtain ⟨m, src⟩ := r
      dsimp only
      cases m.id with
      | none => exact hcreate _ _ _
      | some i =>
        cases (object c).id with
        | none => exact hcreate _ _ _
        | some i' =>
          dsimp only
          split_ifs
          · rfl
          · exact hcreate _ _ _

end Ocfl
