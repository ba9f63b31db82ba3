import Verif.Proofs.KeepStep

/-!
# C21, C22, C28: what was put into an object comes out of it
-/

namespace Ocfl

open Spec FS Prog Ocfl.Inv

/-- **C22**: extracting the `k`-th version of an object that was created and updated from source
directories gives the `k`-th source tree: it succeeds whenever there is nothing at the destination, and
the files below the destination are those of the tree, with the same paths and the same bytes. Nothing
else changes. The settings of the `Object` may differ from step to step, also the digest algorithm. The
algorithms are the two that the library can read back, SHA-512 and SHA-256, and no two different files
of the history may have the same digest. -/
theorem C22_partial {E : Env} (hlib : E.lib.Lawful) (hhash : HashLib E.raw) (hword : WordClass E.isWord)
    (hcwd : ∀ w ∈ E.cwd, SafeName w) {objdir dstdir version : Str} {trees : List Tree} {s : FS}
    (h : History E (absComps E.cwd objdir) trees s) (hno : NoCollision E.raw (InTrees trees)) (hlen : trees.length ≤ 99999)
    {k : Nat} {t : Tree} (hk : trees[k]? = some t)
    (hversion : version = styleName none (k + 1) ∨ (version = c!"head" ∧ k + 1 = trees.length))
    (hout : ¬ absComps E.cwd objdir <+: absComps E.cwd dstdir)
    (hp : look s (dstParent E dstdir) = some .dir) (hvac : Vacant s (absComps E.cwd dstdir)) :
    ∃ s' md, run (extract E objdir version dstdir) s = (s', .ok md) ∧
      (∀ r b, FileBelow s' (absComps E.cwd dstdir) r b ↔ t r b) ∧
      ∀ q, ¬ absComps E.cwd dstdir <+: q → look s' q = look s q := by
  obtain ⟨dv, recs, hs⟩ := history_sound hlib hhash hword hcwd h hno hlen
  exact hs.extract hlib hcwd hno hk hversion hout hp hvac

/-- **C21**: creating an object from a source directory and extracting its head gives back the source
tree, for every normalisation, with or without dedupe, for the digest algorithms SHA-512 and SHA-256. -/
theorem C21_partial {E : Env} (hlib : E.lib.Lawful) (hhash : HashLib E.raw) (hword : WordClass E.isWord)
    (hcwd : ∀ w ∈ E.cwd, SafeName w) {o : Obj} (ho : GoodSettings o) {srcdir objdir dstdir version : Str} {metadata : Option VBlock}
    (hmeta : GoodMeta metadata) {s s' : FS} (hw : s.WF) (hobj : Vacant s (absComps E.cwd objdir))
    (hfile : ∃ r b, FileBelow s (absComps E.cwd srcdir) r b) (hnames : NamesAllowed o (FileBelow s (absComps E.cwd srcdir))) {inv : Inv}
    (hr : run (create E o srcdir metadata (some objdir)) s = (s', .ok inv))
    (hno : ∀ alg, alg = c!"sha512" ∨ alg = c!"sha256" → ∀ r r' b b', FileBelow s (absComps E.cwd srcdir) r b →
      FileBelow s (absComps E.cwd srcdir) r' b' → E.raw alg b = E.raw alg b' → b = b')
    (hversion : version = c!"v1" ∨ version = c!"head")
    (hout : ¬ absComps E.cwd objdir <+: absComps E.cwd dstdir)
    (hp : look s' (dstParent E dstdir) = some .dir) (hvac : Vacant s' (absComps E.cwd dstdir)) :
    ∃ s'' md, run (extract E objdir version dstdir) s' = (s'', .ok md) ∧
      (∀ r b, FileBelow s'' (absComps E.cwd dstdir) r b ↔ FileBelow s (absComps E.cwd srcdir) r b) ∧
      ∀ q, ¬ absComps E.cwd dstdir <+: q → look s'' q = look s' q := by
  have hh : History E (absComps E.cwd objdir) [FileBelow s (absComps E.cwd srcdir)] s' :=
    .create hw ho hmeta rfl hobj hfile hnames hr
  refine C22_partial hlib hhash hword hcwd hh ?_ (by simp) (k := 0) rfl ?_ hout hp hvac
  · rintro alg ha b b' ⟨t, h1, r, h2⟩ ⟨t', h1', r', h2'⟩
    rw [List.mem_singleton] at h1 h1'
    subst h1 h1'
    exact hno alg ha r r' b b' h2 h2'
  · rcases hversion with rfl | rfl
    · exact Or.inl (by decide)
    · exact Or.inr ⟨rfl, rfl⟩

/-- **C28**, for objects made by the library: after any number of updates, the root inventory and the
inventory in every version directory are accepted by the inventory validator, and the root inventory
continues that of every earlier version (`C38`: exactly then the check against the prior version
succeeds), also if the digest algorithm has changed in between. -/
theorem C28_history {E : Env} (hlib : E.lib.Lawful) (hhash : HashLib E.raw) (hword : WordClass E.isWord)
    (hcwd : ∀ w ∈ E.cwd, SafeName w) {base : Path} {trees : List Tree} {s : FS} (h : History E base trees s)
    (hno : NoCollision E.raw (InTrees trees)) (hlen : trees.length ≤ 99999) (ds : Str) :
    ∃ root, StoredJson E.lib s (base ++ [c!"inventory.json"]) root ∧ Accepts E.isWord false ds none root ∧
      ∀ k, 1 ≤ k → k ≤ trees.length → ∃ j, StoredJson E.lib s (base ++ [styleName none k, c!"inventory.json"]) j ∧
        Accepts E.isWord false ds none j ∧ (k < trees.length → Continues root j) ∧ (k = trees.length → j = root) := by
  obtain ⟨dv, recs, hs⟩ := history_sound hlib hhash hword hcwd h hno hlen
  obtain ⟨rl, hlast, hd, hst, _, hpos⟩ := hs.last
  have hidx : recs[trees.length - 1]? = some rl := by
    rw [← hs.length, ← List.getLast?_eq_getElem?]; exact hlast
  refine ⟨_, stored_written hlib hd.parsed.good hst.1, accepts_written hd.parsed.good _ _, ?_⟩
  intro k h1 h2
  obtain ⟨r, hr⟩ : ∃ r, recs[k - 1]? = some r := ⟨_, List.getElem?_eq_getElem (by rw [hs.length]; omega)⟩
  have hv := hs.versions _ r hr
  rw [Nat.sub_add_cancel h1] at hv
  refine ⟨_, ?_, accepts_written hv.describes.parsed.good _ _, ?_, ?_⟩
  · have := stored_written hlib hv.describes.parsed.good hv.stored.1
    rw [List.append_assoc] at this
    exact this
  · intro hlt
    exact hs.continues hno (by omega) hr hidx
  · intro he
    subst he
    rw [hidx] at hr
    cases hr
    rfl

/-- **C28**, for any object: after any number of updates that keep the digest algorithm, every root
inventory but the first (which need not be made by the library) is accepted by the inventory validator,
and continues all the earlier ones. The digests of the first inventory are in small letters. -/
theorem C28_partial {E : Env} (hlib : E.lib.Lawful) (hhash : HashLib E.raw) {base : Path} {alg : Str}
    (halg : alg = c!"sha512" ∨ alg = c!"sha256") {js : List Json} {s : FS} (h : Updates E base alg js s) (ds : Str) :
    (∀ j ∈ js.tail, Accepts E.isWord false ds none j) ∧ js.Pairwise (fun earlier later => Continues later earlier) := by
  obtain ⟨_, _, _, h1, h2⟩ := updates_ok hlib hhash halg h
  exact ⟨fun j hj => h2 j hj _ _, h1⟩

/-- **C28**, one update of any object, with a change of the algorithm or without: the new root inventory
is accepted and continues the old one. The content files are told apart by the new algorithm, and if the
algorithm stays, the digests of the old inventory are in small letters. -/
theorem C28_step {E : Env} (hlib : E.lib.Lawful) (hhash : HashLib E.raw) {o : Obj}
    (halg : o.digestAlgorithm = c!"sha512" ∨ o.digestAlgorithm = c!"sha256") {srcdir objdir : Str} {metadata : Option VBlock}
    (hmeta : GoodMeta metadata) {abort : Bool} {s s' : FS} (hw : s.WF) {j : Json}
    (hj : StoredJson E.lib s (absComps E.cwd objdir ++ [c!"inventory.json"]) j)
    (hcd : ¬ Member j c!"contentDirectory" (.str [])) (hroom : RoomForVersion j)
    (hdig : (Member j c!"digestAlgorithm" (.str o.digestAlgorithm) ∧ LowerDigests j) ∨
      (¬ Member j c!"digestAlgorithm" (.str o.digestAlgorithm) ∧ ToldApart E s (absComps E.cwd objdir) o.digestAlgorithm j))
    (hnames : NamesAllowed o (FileBelow s (absComps E.cwd srcdir))) {inv : Inv}
    (hr : run (addVersionWithContent E o objdir (some srcdir) metadata abort) s = (s', .ok (some inv))) (ds : Str) :
    ∃ j', StoredJson E.lib s' (absComps E.cwd objdir ++ [c!"inventory.json"]) j' ∧ Accepts E.isWord false ds none j' ∧ Continues j' j := by
  obtain ⟨j', m', vs', style', n', k1, k2, k3, k4, k5, k6⟩ := update_step hlib hhash halg hmeta hw hj hcd hroom
    (by rcases hdig with h | h
        · exact Or.inl h.1
        · exact Or.inr h.2) hnames hr
  refine ⟨j', k1, by rw [k3]; exact accepts_written k4.good _ _, k6 ?_⟩
  rcases hdig with h | h
  · exact Or.inr h.2
  · exact Or.inl h.1

/-! ## Examples -/

/-- The files below a directory, as a list. -/
def filesBelow (s : FS) (dir : Path) : List Bytes :=
  s.filterMap (fun e => match e.2 with
    | .file b => if dir <+: e.1 then some b else none
    | .dir => none)

theorem mem_filesBelow {s : FS} {dir r : Path} {b : Bytes} (h : FileBelow s dir r b) : b ∈ filesBelow s dir := by
  obtain ⟨h1, h2⟩ := h
  have hne : dir ++ r ≠ [] := by simp [h1]
  have : Dict.get? s (dir ++ r) = some (.file b) := by
    unfold FS.look at h2
    rw [if_neg hne] at h2
    exact h2
  have := Dict.mem_of_get? this
  exact List.mem_filterMap.mpr ⟨_, this, by simp⟩

theorem noCollision_of {raw : Str → Bytes → Str} {trees : List Tree} {l : List Bytes} (hl : ∀ t ∈ trees, ∀ r b, t r b → b ∈ l)
    (h : ∀ alg ∈ [c!"sha512", c!"sha256"], ∀ b ∈ l, ∀ b' ∈ l, raw alg b = raw alg b' → b = b') : NoCollision raw (InTrees trees) := by
  rintro alg ha b b' ⟨t, h1, r, h2⟩ ⟨t', h1', r', h2'⟩
  exact h alg (by rcases ha with rfl | rfl <;> simp) b (hl t h1 r b h2) b' (hl t' h1' r' b' h2')

theorem demo_history1 : History demoEnv (absComps demoEnv.cwd c!"obj") [FileBelow demoFS (absComps demoEnv.cwd c!"src")] demoMade := by
  obtain ⟨inv, hr⟩ := succeeded_ok (r := run (create demoEnv demoObj c!"src" (some demoMeta) (some c!"obj")) demoFS) (by decide +kernel)
  exact .create demoFS_wf demoObj_good demoMeta_good rfl ⟨Or.inl (by decide +kernel), fun r hr => look_below_none demoFS_wf (List.prefix_append _ _) (by simpa using hr) (by decide +kernel)⟩
    ⟨[c!"a.txt"], [1, 2, 3], by decide, by decide +kernel⟩ (fun h => by cases h) hr

/-- The object after an update with another digest algorithm. -/
def demoGrown : FS := (run demoRehash demoChanged).1

def demoTrees : List Tree :=
  [FileBelow demoFS (absComps demoEnv.cwd c!"src"), FileBelow demoChanged (absComps demoEnv.cwd c!"src")]

theorem demo_apart (q : Path) (h : absComps demoEnv.cwd c!"obj" <+: q) : FS.look demoChanged q = FS.look demoMade q := by
  unfold demoChanged
  rw [FS.look_set (by decide)]
  rw [if_neg]
  rintro rfl
  exact absurd h (by decide +kernel)

theorem demo_history : History demoEnv (absComps demoEnv.cwd c!"obj") demoTrees demoGrown := by
  have h1 : History demoEnv (absComps demoEnv.cwd c!"obj") [FileBelow demoFS (absComps demoEnv.cwd c!"src")] demoChanged :=
    .elsewhere demo_history1 demoChanged_wf demo_apart
  have hs : (match (run demoRehash demoChanged).2 with | .ok (some _) => true | _ => false) = true := by decide +kernel
  cases hr : run demoRehash demoChanged with
  | mk s' r =>
    rw [hr] at hs
    cases r with
    | error e => cases hs
    | ok r =>
      cases r with
      | none => cases hs
      | some inv =>
        have he : demoGrown = s' := by unfold demoGrown; rw [hr]
        rw [he]
        exact .update h1 (Or.inl rfl) demoMeta_good rfl (fun h => by cases h) hr

theorem demo_noCollision : NoCollision demoEnv.raw (InTrees demoTrees) := by
  refine noCollision_of (l := [[1, 2, 3], [4], [9]]) ?_ (by decide +kernel)
  intro t ht r b h
  have hsub : ∀ b ∈ filesBelow demoFS (absComps demoEnv.cwd c!"src") ++ filesBelow demoChanged (absComps demoEnv.cwd c!"src"),
      b ∈ [[1, 2, 3], [4], ([9] : Bytes)] := by decide +kernel
  have ht : t = FileBelow demoFS (absComps demoEnv.cwd c!"src") ∨ t = FileBelow demoChanged (absComps demoEnv.cwd c!"src") := by
    simpa [demoTrees] using ht
  rcases ht with rfl | rfl
  · exact hsub b (List.mem_append_left _ (mem_filesBelow h))
  · exact hsub b (List.mem_append_right _ (mem_filesBelow h))

theorem demoWord_class : WordClass demoEnv.isWord := fun _ _ => rfl

theorem demoGrown_wf : demoGrown.WF where
  nk := by decide +kernel
  noRoot := by decide +kernel
  parent := by decide +kernel
  names := by decide +kernel

theorem vacant_of {s : FS} (h : s.WF) {d : Path} (hl : FS.look s d = none) : Vacant s d :=
  ⟨Or.inl hl, fun r hr => look_below_none h (List.prefix_append _ _) (by simpa using hr) (by rw [hl]; simp)⟩

/-- Both versions come back, although the digest algorithm was changed. -/
example : ∀ k t, demoTrees[k]? = some t → ∃ s' md,
    run (extract demoEnv c!"obj" (styleName none (k + 1)) c!"out") demoGrown = (s', .ok md) ∧
    ∀ r b, FileBelow s' (absComps demoEnv.cwd c!"out") r b ↔ t r b := by
  intro k t hk
  obtain ⟨s', md, h1, h2, _⟩ := C22_partial demoEnv_lawful demoRaw_hash demoWord_class demoEnv_cwd demo_history demo_noCollision (by decide)
    hk (dstdir := c!"out") (Or.inl rfl) (by decide +kernel) (by decide +kernel) (vacant_of demoGrown_wf (by decide +kernel))
  exact ⟨s', md, h1, h2⟩

/-- The two trees are not the same. -/
example : FileBelow demoFS (absComps demoEnv.cwd c!"src") [c!"a.txt"] [1, 2, 3] ∧
    FileBelow demoChanged (absComps demoEnv.cwd c!"src") [c!"a.txt"] [9] :=
  ⟨⟨by decide, by decide +kernel⟩, ⟨by decide, by decide +kernel⟩⟩

/-- What was put into the object with `create` comes out of it. -/
example : ∃ s' md, run (extract demoEnv c!"obj" c!"head" c!"out") demoMade = (s', .ok md) ∧
    ∀ r b, FileBelow s' (absComps demoEnv.cwd c!"out") r b ↔ FileBelow demoFS (absComps demoEnv.cwd c!"src") r b := by
  obtain ⟨inv, hr⟩ := succeeded_ok (r := run (create demoEnv demoObj c!"src" (some demoMeta) (some c!"obj")) demoFS) (by decide +kernel)
  have hno : ∀ alg ∈ [c!"sha512", c!"sha256"], ∀ b ∈ filesBelow demoFS (absComps demoEnv.cwd c!"src"),
      ∀ b' ∈ filesBelow demoFS (absComps demoEnv.cwd c!"src"), demoEnv.raw alg b = demoEnv.raw alg b' → b = b' := by decide +kernel
  obtain ⟨s', md, h1, h2, _⟩ := C21_partial demoEnv_lawful demoRaw_hash demoWord_class demoEnv_cwd demoObj_good (srcdir := c!"src") demoMeta_good
    demoFS_wf (vacant_of demoFS_wf (by decide +kernel)) ⟨[c!"a.txt"], [1, 2, 3], by decide, by decide +kernel⟩ (fun h => by cases h) hr
    (fun alg ha r r' b b' h h' => hno alg (by rcases ha with rfl | rfl <;> simp) b (mem_filesBelow h) b' (mem_filesBelow h'))
    (dstdir := c!"out") (Or.inr rfl) (by decide +kernel) (by decide +kernel) (vacant_of demoMade_wf (by decide +kernel))
  exact ⟨s', md, h1, h2⟩

/-- The inventories of the history are accepted, and continue each other. -/
example : ∃ root, StoredJson demoEnv.lib demoGrown (absComps demoEnv.cwd c!"obj" ++ [c!"inventory.json"]) root ∧
    Accepts demoEnv.isWord false c!"1.1" none root ∧
    ∃ j, StoredJson demoEnv.lib demoGrown (absComps demoEnv.cwd c!"obj" ++ [c!"v1", c!"inventory.json"]) j ∧ Continues root j := by
  obtain ⟨root, h1, h2, h3⟩ := C28_history demoEnv_lawful demoRaw_hash demoWord_class demoEnv_cwd demo_history demo_noCollision (by decide) c!"1.1"
  obtain ⟨j, h4, _, h5, _⟩ := h3 1 (by decide) (by decide)
  exact ⟨root, h1, h2, j, h4, h5 (by decide)⟩

/-- The JSON document in a file. -/
def storedJson? (lib : JsonLib) (s : FS) (p : Path) : Option Json :=
  match FS.look s p with
  | some (.file b) => (utf8Decode b).bind (fun t => lib.loads (univNewlines t))
  | _ => none

theorem storedJson?_spec {lib : JsonLib} {s : FS} {p : Path} {j : Json} : storedJson? lib s p = some j ↔ StoredJson lib s p j := by
  unfold storedJson? StoredJson
  cases h : FS.look s p with
  | none => simp
  | some x =>
    cases x with
    | dir => simp
    | file b =>
      constructor
      · intro h'
        obtain ⟨t, h1, h2⟩ := Option.bind_eq_some_iff.mp h'
        exact ⟨b, t, rfl, h1, h2⟩
      · rintro ⟨b', t, hb, h1, h2⟩
        cases hb
        exact Option.bind_eq_some_iff.mpr ⟨t, h1, h2⟩

end Ocfl
