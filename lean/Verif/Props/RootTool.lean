import Verif.Proofs.Repository
import Verif.Props.ObjectTool

/-!
# C86: what is done with `ocfl-root.py`
-/

namespace Ocfl

open Spec FS Prog Store RootCli

/-- `os.path.join` for a path that is not absolute. -/
theorem absComps_join_resolve (cwd : Path) (root p : Str) (hp : startsWith p c!"/" = false) :
    absComps cwd (osPathJoin root p) = resolve (absComps cwd root) p := by
  have e0 : osPathJoin root p = if root = [] ∨ endsWith root c!"/" then root ++ p else root ++ c!"/" ++ p := by
    unfold osPathJoin
    split
    · cases hp
    · rfl
  have hsplit : ∀ q t : Str, splitOn '/' (q ++ '/' :: t) = splitOn '/' q ++ splitOn '/' t := fun q t => splitOn_append '/' q t
  rw [e0]
  unfold resolve
  by_cases hr : root = []
  · subst hr
    rw [if_pos (Or.inl rfl), absComps_nil, List.nil_append]
    unfold absComps
    rw [hp]
    rfl
  · by_cases he : endsWith root c!"/" = true
    · rw [if_pos (Or.inr he)]
      obtain ⟨q, hq⟩ := endsWith_iff.mp he
      have hq : root = q ++ ['/'] := hq
      unfold absComps
      rw [startsWith_slash_append hr, hq, List.append_assoc, List.singleton_append, hsplit, hsplit, List.foldl_append, List.foldl_append]
      rfl
    · rw [if_neg (by rintro (h | h); exact hr h; exact he h)]
      unfold absComps
      rw [List.append_assoc, startsWith_slash_append hr, show (c!"/" : Str) ++ p = '/' :: p from rfl, hsplit, List.foldl_append]

/-- Layouts give paths that are not absolute. -/
theorem path_relative {raw : Str → Bytes → Str} (hraw : Spec.HexDigests raw) {enc : Str → Str} (henc : GoodEncoder enc)
    {l : LayoutObj} (hl : GoodParams raw l) {i p : Str} (hi : i ≠ []) (h : l.path raw enc i = .ok p) : startsWith p c!"/" = false := by
  have hbelow : ∀ {ws}, (∀ w ∈ ws, IsComp w) → ws ≠ [] → startsWith (joinWith '/' ws) c!"/" = false := by
    intro ws hs hne
    cases ws with
    | nil => exact absurd rfl hne
    | cons w ws =>
      cases w with
      | nil => exact absurd rfl (hs [] (by simp)).1
      | cons c w =>
        have hc : c ≠ '/' := fun e => (hs (c :: w) (by simp)).2 (by simp [e])
        cases ws <;> simp [joinWith, startsWith, List.isPrefixOf, Ne.symm hc]
  cases l with
  | flatDirect =>
    obtain ⟨rfl, hs⟩ := (C45 i p).mp h
    exact hbelow (ws := [p]) (by simpa using SafeName.isComp hs) (by simp)
  | flatQuoted =>
    have h' : Layout.flatQuoted i = .ok p := h
    unfold Layout.flatQuoted at h'
    rw [if_neg hi] at h'
    cases h'
    exact startsWith_slash_no (quotePlus_no_slash i)
  | hashNTuple alg ts nt =>
    obtain ⟨p', ws, h', hb', _⟩ := C46 hraw hl.1 hi
    have : LayoutObj.path raw enc (.hashNTuple alg ts nt) i = .ok p' := h'
    rw [h] at this
    cases this
    rw [hb'.2.2]
    exact hbelow (fun w hw => SafeName.isComp (hb'.2.1 w hw)) hb'.1
  | tupleTree ts =>
    have hts : 0 < ts := by have := hl.1; omega
    obtain ⟨hc, h'⟩ := tupleTree_eq henc hts hi
    have : LayoutObj.path raw enc (.tupleTree ts) i = _ := h'
    rw [h] at this
    cases this
    exact hbelow hc (by simp)
  | uuidQuadtree pfx =>
    obtain ⟨gs, t, hlen, hg, _, _, rfl⟩ := uuidQuadtree_iff.mp h
    exact hbelow (fun w hm => SafeName.isComp (group_safe (hg w hm))) (by rintro rfl; cases hlen)

section
variable {B : Bagit} {E : Env} {reg : Dict Str LayoutObj} {enc : Str → Str} {root name : Str} {items : List Item} {s : FS}

/-- The path of an identifier in a storage root that was made by the library. -/
theorem path_command {a : Common} (hroot : RootIs a root) (hlayout : a.layout = none) {l : LayoutObj} {spec : Str}
    {objs : List (List Str × Str)} (hs : StoreSound E reg enc (absComps E.cwd root) spec l objs s)
    (hreg : ∃ l0, Dict.get? reg l.name = some l0 ∧ l0.name = l.name) {id : Str} (hid : id ≠ []) :
    doStoreOperation E reg enc a (.path (some id)) s = (s, match l.path E.raw enc id with
      | .error e => .error e
      | .ok p => .ok (.line (pathLine a.quiet root id p))) := by
  unfold doStoreOperation
  rw [getStorageRoot_iff.mpr hroot]
  refine Prod.ext rfl ?_
  show doLook E reg enc a.quiet false (some id) s (RootCli.store a root) = _
  unfold doLook
  have e1 : needId (some id) = .ok id := by
    cases id with
    | nil => exact absurd rfl hid
    | cons c t => rfl
  have e2 : (objectPath E reg enc s (RootCli.store a root) id).2 = l.path E.raw enc id := by
    unfold objectPath
    have e : layoutOf reg (RootCli.store a root) = (RootCli.store a root, .ok none) := by
      unfold layoutOf RootCli.store
      rw [hlayout]
    rw [e]
    dsimp only
    rw [openRoot_dir (r := RootCli.store a root) hs.dir]
    dsimp only
    rw [show (RootCli.store a root).root = root from rfl, hs.checks hreg (r := RootCli.store a root) rfl (.inl rfl)]
    dsimp only
    rw [layoutOf_some rfl]
  rw [e1]
  dsimp only
  rw [e2]
  cases l.path E.raw enc id with
  | error e => rfl
  | ok p => rfl

/-- **C86** (partial): a storage root was made with `ocfl-root.py create`, objects that were made with `ocfl-object.py` were put into it with `ocfl-root.py
add`, and updated there with `ocfl-object.py update`, in any number and any order. Then `ocfl-root.py list` shows each of the objects once, with its path and its
identifier, and nothing else, and says how many there are; `ocfl-root.py validate --validate-objects` says that all of them, and the root, are `VALID`; and
`ocfl-root.py path --quiet` prints for the identifier of each object a path, with which `ocfl-object.py validate` says `VALID` and `ocfl-object.py extract` gives
for each version exactly the files that were given. The commands that look change nothing.

Missing: layouts that are not registered under the name they write, the tuple tree, and identifiers that collide with the files of the root, as for C78;
`--layout` of `path`, see `C86_violated_layout`; the exit status of `validate`, see `C86_violated_status`; and `show`, `purge` and `validate-object`, see
`C86_violated_show` and `C86_violated_commands`. -/
theorem C86_partial (hE : Libraries E) (hraw : Spec.HexDigests E.raw) (hcwd : ∀ w ∈ E.cwd, SafeName w)
    (hgood : ∀ n l, getLayout reg n = .ok l → GoodParams E.raw l) (henc : GoodEncoder enc) (hdot : ∀ i, '.' ∉ enc i) {l0 : LayoutObj}
    (hname : PlainLayout reg name l0) (h : Repository B E reg enc root name items s) (hno : ∀ i ∈ items, NoCollision E.raw (InTrees i.trees))
    (hlen : ∀ i ∈ items, i.trees.length ≤ 99999) {a : Common} (hroot : RootIs a root) (hlayout : a.layout = none) (hlax : a.laxDigests = false) :
    (l0.config = none ∨ l0.name ∈ Store.registeredExtensions → ∃ out, doStoreOperation E reg enc a .list s = (s, .ok (.listed out items.length root)) ∧
      out.Perm (items.map (fun i => (i.path, some i.id)))) ∧
    (∀ check, doStoreOperation E reg enc a (.validate true check) s = (s, .ok (.report (some (items.length, items.length, true)) root true))) ∧
    ∀ i ∈ items, ∃ objdir, doStoreOperation E reg enc { a with quiet := true } (.path (some i.id)) s = (s, .ok (.line objdir)) ∧
      absComps E.cwd objdir = absComps E.cwd root ++ i.place ∧
      ∀ (now : Str) (c : ObjectCli.Common), c.laxDigests = false →
        ObjectCli.doObjectOperation B E now c (.validate objdir) s = (s, .ok (.verdict true)) ∧
        ∀ k t objver dstdir setDate, i.trees[k]? = some t → objver = unpaddedName (k + 1) ∨ (objver = c!"head" ∧ k + 1 = i.trees.length) →
          dstdir ≠ [] → ¬ absComps E.cwd objdir <+: absComps E.cwd dstdir → look s (dstParent E dstdir) = some .dir → Vacant s (absComps E.cwd dstdir) →
          ∃ s', ObjectCli.doObjectOperation B E now c (.extract objdir objver dstdir none setDate none) s =
              (s', .ok (.extracted (some (unpaddedName (k + 1))))) ∧
            (∀ r b, FileBelow s' (absComps E.cwd dstdir) r b ↔ t r b) ∧
            ∀ q, ¬ absComps E.cwd dstdir <+: q → look s' q = look s q := by
  obtain ⟨spec, l, h1, h2⟩ := repository_sound hE hraw hcwd hgood henc hdot hname h hno hlen
  obtain ⟨hget, hreg0, htree⟩ := hname
  have hreg : ∃ l0, Dict.get? reg l.name = some l0 ∧ l0.name = l.name := by rw [← h1]; exact hreg0
  have hs := store_sound hE.json hE.word hraw hcwd hgood henc hdot hreg h2.store
  obtain ⟨k1, k2, k3⟩ := C78_partial hE hraw hcwd hgood henc hdot hreg h2.store (r := RootCli.store a root) rfl rfl (.inl rfl) rfl
  have hplen : (placesOf items).length = items.length := by unfold placesOf; rw [List.length_map]
  refine ⟨fun hl => ?_, fun check => ?_, fun i hi => ?_⟩
  · obtain ⟨out, o1, o2⟩ := k2 (.inr (hl.imp (LayoutObj.kind_of_name h1).2 (by rw [h1]; exact id)))
    have hperm : out.Perm (items.map (fun i => (i.path, some i.id))) := by
      have e : (placesOf items).map (fun o => (joinWith '/' o.1, some o.2)) = items.map (fun i => (i.path, some i.id)) := by
        unfold placesOf
        rw [List.map_map]
        apply List.map_congr_left
        intro i hi
        show (joinWith '/' i.place, some i.id) = _
        rw [← h2.path i hi]
      rw [← e]; exact o2
    refine ⟨out, ?_, hperm⟩
    unfold doStoreOperation
    rw [getStorageRoot_iff.mpr hroot]
    dsimp only
    rw [o1]
    dsimp only
    rw [hperm.length_eq, List.length_map]
  · obtain ⟨r', hr⟩ := k1 hlax check
    unfold doStoreOperation
    rw [getStorageRoot_iff.mpr hroot]
    show (s, doValidate E reg true check none s (RootCli.store a root)) = _
    unfold doValidate
    rw [hr, hplen]
    dsimp only
    rw [if_neg (by simp)]
    unfold printReport
    rw [if_pos rfl, if_pos rfl]
    rfl
  · have hm : (i.place, i.id) ∈ placesOf items := List.mem_map.mpr ⟨i, hi, rfl⟩
    have hp : l.path E.raw enc i.id = .ok i.path := by rw [h2.path i hi]; exact hs.path _ hm
    have hid : i.id ≠ [] := hs.id_ne hE.json hm
    have hdir : absComps E.cwd (osPathJoin root i.path) = absComps E.cwd root ++ i.place := by
      rw [absComps_join_resolve _ _ _ (path_relative hraw henc hs.good hid hp), h2.path i hi, resolve_join _ (hs.names _ hm).2]
    refine ⟨osPathJoin root i.path, ?_, hdir, fun now c hc => ?_⟩
    · rw [path_command (a := { a with quiet := true }) hroot hlayout hs hreg hid, hp]
      rfl
    · have hobj := h2.object i hi
      rw [← hdir] at hobj
      obtain ⟨c1, c2⟩ := C84_partial hE hcwd hobj (hno i hi) (hlen i hi) (now := now) (c := c) hc
      exact ⟨c2.mpr (h2.later i hi), c1⟩

/-- **C86**, what `VALID` means: for any tree of files, however it came to be, `ocfl-root.py validate --validate-objects` says that the root is `VALID`
exactly if it is: it is declared, its layout is known and has allowed parameters, every directory reached that has files or is empty is a valid
object, and there are no files in the extensions directory. Then it also says that all objects are `VALID`. -/
theorem C86_verdict (hE : Libraries E) (hraw : Spec.HexDigests E.raw) (hw : s.WF) {a : Common} (hroot : RootIs a root) (hlax : a.laxDigests = false)
    {check : Bool} :
    (∃ objects, doStoreOperation E reg enc a (.validate true check) s = (s, .ok (.report objects root true))) ↔
      look s (absComps E.cwd root) = some .dir ∧ (∃ v, RootDeclared E s (absComps E.cwd root) v) ∧ RootLayout E reg s (absComps E.cwd root) ∧
      (∀ ws, Reached s (absComps E.cwd root) ws → FileBearing s (absComps E.cwd root ++ ws) ∨ EmptyDir s (absComps E.cwd root ++ ws) →
        ValidObject E check s (absComps E.cwd root ++ ws)) ∧
      (∀ w b, look s (absComps E.cwd root ++ [c!"extensions", w]) ≠ some (.file b)) := by
  have h55 := C55_partial hE hraw (reg := reg) hw (r := RootCli.store a root) hlax rfl rfl (check := check)
  have e : (∃ objects, doStoreOperation E reg enc a (.validate true check) s = (s, .ok (.report objects root true))) ↔
      ∃ r' n, validate E reg true check s (RootCli.store a root) = (r', .ok ⟨true, n, n⟩) := by
    unfold doStoreOperation
    rw [getStorageRoot_iff.mpr hroot]
    show (∃ objects, (s, doValidate E reg true check none s (RootCli.store a root)) = _) ↔ _
    unfold doValidate
    cases hv : validate E reg true check s (RootCli.store a root) with
    | mk r' res =>
      cases res with
      | error e => simp
      | ok rep =>
        obtain ⟨v, n, m⟩ := rep
        dsimp only
        rw [if_neg (by simp)]
        unfold printReport
        by_cases hnm : m = n
        · subst hnm
          simp [RootCli.store]
        · simp [hnm]
  rw [e, h55]
  constructor
  · rintro ⟨h1, ⟨v, _, h2⟩, h3⟩
    exact ⟨h1, ⟨v, h2⟩, h3⟩
  · rintro ⟨h1, ⟨v, h2⟩, h3⟩
    exact ⟨h1, ⟨v, .inl rfl, h2⟩, h3⟩

/-- **C86**, commands that only look: all commands but `create` and `add` change nothing, whatever they say; and `add` that does not end with exit status 0
changes nothing either. -/
theorem C86_looks (hE : Libraries E) (hraw : Spec.HexDigests E.raw) (hgood : ∀ n l, getLayout reg n = .ok l → GoodParams E.raw l)
    (henc : GoodEncoder enc) (hdot : ∀ i, '.' ∉ enc i) (hw : s.WF) {a : Common} {cmd : Command} (hcreate : ∀ spec params, cmd ≠ .create spec params)
    (hadd : (∀ src, cmd ≠ .add src) ∨ exitStatus (doStoreOperation E reg enc a cmd s) ≠ 0) : (doStoreOperation E reg enc a cmd s).1 = s := by
  cases hr : getStorageRoot a with
  | error e => unfold doStoreOperation; rw [hr]; cases cmd <;> rfl
  | ok root =>
    unfold doStoreOperation at hadd ⊢
    rw [hr] at hadd ⊢
    cases cmd with
    | create spec params => exact absurd rfl (hcreate spec params)
    | add src =>
      rcases hadd with hadd | hadd
      · exact absurd rfl (hadd src)
      · match src with
        | none => rfl
        | some [] => rfl
        | some (c :: src) =>
          dsimp only at hadd ⊢
          cases hx : run (Store.add E reg enc (RootCli.store a root) (c :: src)) s with
          | mk s' r =>
            rw [hx] at hadd
            cases r with
            | ok v => exact absurd rfl hadd
            | error e =>
              exact C54_refuses hE.json hw (C54_layouts hraw henc hdot hgood (by intro l h; cases h) hw) hx
    | _ => rfl

/-- **C86**, adding: in a storage root that was made with these commands, `ocfl-root.py add` of an object that was made with `ocfl-object.py` puts its
files where `ocfl-root.py path --quiet` says for its identifier, if nothing is there and no file is above it; and if something is there, it is refused and
nothing changes. -/
theorem C86_adds (hE : Libraries E) (hraw : Spec.HexDigests E.raw) (hcwd : ∀ w ∈ E.cwd, SafeName w)
    (hgood : ∀ n l, getLayout reg n = .ok l → GoodParams E.raw l) (henc : GoodEncoder enc) (hdot : ∀ i, '.' ∉ enc i) {l0 : LayoutObj}
    (hname : PlainLayout reg name l0) (h : Repository B E reg enc root name items s) (hno : ∀ i ∈ items, NoCollision E.raw (InTrees i.trees))
    (hlen : ∀ i ∈ items, i.trees.length ≤ 99999) {a : Common} (hroot : RootIs a root) (hlayout : a.layout = none) {src id ospec : Str} {trees : List Tree}
    (hobj : Session B E (absComps E.cwd src) id ospec trees s) (hon : NoCollision E.raw (InTrees trees)) (hol : trees.length ≤ 99999) (hsrc : src ≠ [])
    {line : Str} (hpath : doStoreOperation E reg enc { a with quiet := true } (.path (some id)) s = (s, .ok (.line line))) :
    (look s (absComps E.cwd line) ≠ none → doStoreOperation E reg enc a (.add (some src)) s = (s, .error .storageRootException)) ∧
    (look s (absComps E.cwd line) = none → (∀ q b, q <+: absComps E.cwd line → look s q ≠ some (.file b)) →
      ∃ s' path, doStoreOperation E reg enc a (.add (some src)) s = (s', .ok (.added id path)) ∧ line = osPathJoin root path ∧
        (∀ q b, look s' (absComps E.cwd line ++ q) = some (.file b) ↔ look s (absComps E.cwd src ++ q) = some (.file b)) ∧
        ∀ q, ¬ q <+: absComps E.cwd line → ¬ absComps E.cwd line <+: q → look s' q = look s q) := by
  obtain ⟨spec, l, h1, h2⟩ := repository_sound hE hraw hcwd hgood henc hdot hname h hno hlen
  obtain ⟨hget, hreg0, htree⟩ := hname
  have hreg : ∃ l0, Dict.get? reg l.name = some l0 ∧ l0.name = l.name := by rw [← h1]; exact hreg0
  have hs := store_sound hE.json hE.word hraw hcwd hgood henc hdot hreg h2.store
  obtain ⟨recs, rl, hsound, hlast, hid⟩ := session_sound hE hcwd hobj hon hol
  obtain ⟨inv, p1, p2⟩ := sound_id hE.json hsound hlast hid
  have hidne : id ≠ [] := by
    rintro rfl
    unfold doStoreOperation at hpath
    rw [(getStorageRoot_iff (a := { a with quiet := true })).mpr hroot] at hpath
    cases (Prod.mk.inj hpath).2
  rw [path_command (a := { a with quiet := true }) hroot hlayout hs hreg hidne] at hpath
  cases hp : l.path E.raw enc id with
  | error e => rw [hp] at hpath; cases (Prod.mk.inj hpath).2
  | ok p =>
    rw [hp] at hpath
    have hline : osPathJoin root p = line := by
      have := (Prod.mk.inj hpath).2
      exact Output.line.inj (Except.ok.inj this)
    subst hline
    rw [absComps_join_resolve _ _ _ (path_relative hraw henc hs.good hidne hp)]
    have hsdir : look s (absComps E.cwd src) = some .dir := by
      obtain ⟨b, hb⟩ := parse_file p1
      exact FS.look_above hs.wf [c!"inventory.json"] (by simp) hb
    have hcheck := hs.checks hreg (r := RootCli.store a root) rfl (.inl rfl)
    have hcommand : ∀ r, run (Store.add E reg enc (RootCli.store a root) src) s = r →
        doStoreOperation E reg enc a (.add (some src)) s = (match r with
          | (s', .error e) => (s', .error e)
          | (s', .ok (id, path)) => (s', .ok (.added id path))) := by
      rintro r rfl
      cases src with
      | nil => exact absurd rfl hsrc
      | cons c src =>
        unfold doStoreOperation
        rw [getStorageRoot_iff.mpr hroot]
        dsimp only
        rcases run (Store.add E reg enc (RootCli.store a root) (c :: src)) s with ⟨s', r⟩
        cases r <;> rfl
    constructor
    · intro hx
      rw [hcommand _ (C54_taken (r := RootCli.store a root) hs.dir hcheck hsdir p1 p2 (l := l) (by rw [layoutOf_some rfl]) hp hx)]
    · intro hx hclear
      obtain ⟨ws, hb⟩ := path_below hraw henc hdot hs.good hidne hp hs.wf hs.dir hx
      have hres : resolve (absComps E.cwd root) p = absComps E.cwd root ++ ws := by rw [hb.2.2, resolve_join _ hb.2.1]
      rw [hres] at hx hclear ⊢
      rcases copydir_total hs.wf (ws := ws) hb.2.1 hsdir hs.dir with ⟨s', hrun, hc⟩ | ⟨e, he⟩
      · refine ⟨s', p, ?_, rfl, hc.files, hc.frame⟩
        rw [← hb.2.2] at hrun
        rw [hcommand (s', .ok (id, p))]
        unfold Store.add
        rw [run_get, openRoot_dir (r := RootCli.store a root) hs.dir]
        dsimp only
        rw [show (RootCli.store a root).root = root from rfl, hcheck]
        dsimp only
        rw [openObj_dir hsdir]
        dsimp only
        rw [p1]
        dsimp only
        rw [p2]
        dsimp only
        have e3 : objectPath E reg enc s { RootCli.store a root with specVersion := some spec, layoutName := some l.name, layout := some l } id =
            ({ RootCli.store a root with specVersion := some spec, layoutName := some l.name, layout := some l }, .ok p) := by
          unfold objectPath
          rw [layoutOf_some rfl]
          dsimp only
          rw [hp]
        rw [e3]
        dsimp only
        rw [if_neg (by unfold exists_; rw [hres, hx]; simp), run_bind_ok (s1 := s') (a := ())]
        · rfl
        · rw [run_handle, hrun]
      · exfalso
        obtain ⟨s', k1, _⟩ := C59 hs.wf (srcBase := absComps E.cwd src) (sws := []) (by simp) hb.2.1 (.inr rfl) (by simpa using hsdir) hs.dir hx hclear
        have e2 : run (fswCopydir (absComps E.cwd src) c!"/" (absComps E.cwd root) (joinWith '/' ws)) s = (s', .ok ()) := k1
        rw [he] at e2
        cases (Prod.mk.inj e2).2

end

end Ocfl
