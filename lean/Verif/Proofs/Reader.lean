import Verif.Proofs.Beside
import Verif.Props.Missing
import Verif.Spec.Prefix
import Verif.Spec.Together

/-!
# An extraction beside an update

The first look of an extraction reads the root inventory. What it copies afterwards stays where it is.
-/

namespace Ocfl

open Spec FS Prog Ocfl.Inv

variable {B : Path → Prop}

theorem extractDst_bind {α : Type} (E : Env) (dstdir : Str) (f : Path → Prog α) :
    Prog.bind (extractDst E dstdir) f = Prog.bind (Prog.look (fun s => openObj E (osPathSplit (osNormpath dstdir)).1 s)) (fun pbase =>
      Prog.bind (Prog.get (prepareDst pbase (osPathSplit (osNormpath dstdir)).2)) (fun _ => f (FS.resolve pbase (osPathSplit (osNormpath dstdir)).2))) := by
  unfold extractDst
  dsimp only
  rw [Prog.bind_assoc]
  congr 1
  funext pbase
  rw [Prog.bind_assoc]
  rfl

theorem local_extractDst_bind {α : Type} {E : Env} {dstdir : Str} (hs : ∀ w ∈ absComps E.cwd dstdir, SafeName w)
    (hp : dstParent E dstdir <+: absComps E.cwd dstdir) (hB : ∀ x, Near (absComps E.cwd dstdir) x → B x) {f : Path → Prog α}
    (hf : Local B (f (absComps E.cwd dstdir))) : Local B (Prog.bind (extractDst E dstdir) f) := by
  rw [extractDst_bind]
  refine .look_bind ?_ ?_
  · intro s s' _ _ ha
    unfold openObj fswOpen
    dsimp only
    rw [isdir_agree (p := absComps E.cwd (osPathSplit (osNormpath dstdir)).1) (ha _ (hB _ (Or.inl hp)))]
  · intro s pbase hpb
    obtain ⟨rfl, _⟩ := openObj_ok hpb
    have e := (dstParent_resolve E dstdir).1
    unfold dstParent at e
    refine .bind (local_prepareDst e hs hB) (fun _ => ?_)
    rw [e]
    exact hf

theorem inDst_extractDst_bind {α : Type} {E : Env} {dstdir : Str} {f : Path → Prog α} (hf : Only (InDst (absComps E.cwd dstdir)) (f (absComps E.cwd dstdir))) :
    Only (InDst (absComps E.cwd dstdir)) (Prog.bind (extractDst E dstdir) f) := by
  rw [extractDst_bind]
  refine .look_bind ?_
  intro s pbase hpb
  obtain ⟨rfl, _⟩ := openObj_ok hpb
  have e := (dstParent_resolve E dstdir).1
  unfold dstParent at e
  refine .bind (.get (fun s => ?_)) (fun _ => by rw [e]; exact hf)
  unfold prepareDst
  refine .ite (fun _ => ?_) (fun _ => ?_)
  · split
    · exact .ret
    · exact .ite (fun _ => .ret) (fun _ => .ret)
  · rw [e]
    exact .get (fun _ => .ite (fun _ => .ret) (fun _ => inDst_makedirs (Or.inl List.prefix_rfl) true))

/-- The inventory describes the trees as long as the content files are kept. -/
theorem Describes.keeps {E : Env} {s s' : FS} {base : Path} {trees : List Tree} {inv : Inv} {alg : Str} {m : DigestMap}
    {vs : Dict Str VBlock} (h : Describes E s base trees inv alg m vs)
    (hf : ∀ v r b, r ≠ [] → look s (base ++ v :: r) = some (.file b) → look s' (base ++ v :: r) = some (.file b)) :
    Describes E s' base trees inv alg m vs := by
  refine ⟨h.parsed, h.contentDirectory, ?_, h.states, ?_, h.ok⟩
  · intro d c hl
    obtain ⟨v, ws, b, h1, h2, h3, h4, h5, h6⟩ := h.content d c hl
    exact ⟨v, ws, b, h1, h2, h3, h4, hf v _ b (by simp) h5, h6⟩
  · intro fx a fm hfx hm d c hl
    obtain ⟨segs, b, h1, h2, h3, h4, h5⟩ := h.fixity fx a fm hfx hm d c hl
    refine ⟨segs, b, h1, h2, h3, ?_, h5⟩
    obtain ⟨_, hq⟩ := h.parsed.good.fixity fx hfx
    obtain ⟨d', hd'⟩ := mem_listed.mp ((hq a fm hm).2.2.2.2 c (mem_listed.mpr ⟨d, hl⟩))
    obtain ⟨v, ws, _, k1, _, k3, k4, _⟩ := h.segs hd'
    have := pathOf_inj h1 (by simp) (fun w hw => (h2 w hw).2.2.2) (fun w hw => (k3 w hw).2.2.2) (h3.symm.trans k4)
    subst this
    exact hf v _ b (by simp) h4

/-- A root inventory that holds a first part of an inventory: it is all of it, or it cannot be read. -/
theorem parse_part {E : Env} (hpre : E.lib.NoPrefix) {base : Path} {s : FS} {inv : Inv} {n : Nat} (hk : inv.Keys)
    (hl : look s (base ++ [inventoryFilename]) = some (.file ((utf8 (inventoryText E inv)).take n))) :
    look s (base ++ [inventoryFilename]) = some (.file (utf8 (inventoryText E inv))) ∨
    parseInventory E base s = .error .unicodeError ∨ parseInventory E base s = .error .jsonDecodeError := by
  unfold parseInventory readText FS.read
  rw [look_inventory, hl]
  dsimp only
  cases hd : utf8Decode ((utf8 (inventoryText E inv)).take n) with
  | none => exact Or.inr (Or.inl rfl)
  | some t =>
    dsimp only
    cases hj : E.lib.loads (univNewlines t) with
    | none => exact Or.inr (Or.inr rfl)
    | some j =>
      left
      obtain ⟨d, he⟩ : ∃ d, inv.toJson.sortKeys = .obj d := ⟨_, by rw [Inv.toJson_eq]; exact Json.sortKeys_obj _⟩
      have hw := (Inv.writable_toJson hk).sortKeys
      rw [he] at hw
      have ht : inventoryText E inv = E.lib.dumps (.obj d) := by
        unfold inventoryText JsonLib.dumpsSorted
        rw [he]
      rw [ht] at hd ⊢
      rw [hpre d n t hw hd (by rw [hj]; simp)]

/-- What an extraction does next, when it has read an inventory. -/
def extractNext (E : Env) (objdir dstdir : Str) (inv : Inv) (v : Str) : Prog VMeta :=
  Prog.bind (extractDst E dstdir) (fun dst =>
  Prog.bind (extractState (absComps E.cwd objdir) dst inv.manifestD (inv.stateOf v)) (fun _ =>
  Prog.ofPy (versionMetadata inv v)))

/-- The first look of an extraction. -/
theorem extract_step {E : Env} {objdir version dstdir : Str} {p' : Prog VMeta} {s s' : FS}
    (h : Concurrent.Step (extract E objdir version dstdir) s p' s') :
    s' = s ∧ ((∃ e, extractSetup E objdir version s = .error e ∧ p' = .ret (.error e)) ∨
      ∃ inv v, extractSetup E objdir version s = .ok (absComps E.cwd objdir, inv, v) ∧ p' = extractNext E objdir dstdir inv v) := by
  cases h with
  | get =>
    refine ⟨rfl, ?_⟩
    cases hs : extractSetup E objdir version s with
    | error e => exact Or.inl ⟨e, rfl, by dsimp only; rw [hs]; rfl⟩
    | ok r =>
      obtain ⟨base, inv, v⟩ := r
      have hb : base = absComps E.cwd objdir := by
        unfold extractSetup at hs
        split at hs
        · cases hs
        · rename_i b hb
          obtain ⟨rfl, _⟩ := openObj_ok hb
          split at hs
          · cases hs
          · split at hs
            · cases hs; rfl
            · split at hs
              · cases hs
              · split at hs
                · cases hs; rfl
                · cases hs
      subst hb
      exact Or.inr ⟨inv, v, rfl, by dsimp only; rw [hs]; rfl⟩

theorem run_extractNext {E : Env} {objdir version dstdir : Str} {s : FS} {inv : Inv} {v : Str}
    (h : extractSetup E objdir version s = .ok (absComps E.cwd objdir, inv, v)) :
    run (extractNext E objdir dstdir inv v) s = run (extract E objdir version dstdir) s := by
  unfold extract
  rw [run_bind_ok (s1 := s) (a := (absComps E.cwd objdir, inv, v)) (by rw [run_look, h])]
  rfl

/-- The version of the object that is asked for. -/
def AsksFor (version : Str) (n k : Nat) : Prop := version = styleName none (k + 1) ∨ version = c!"head" ∧ k + 1 = n

/-- Reading an inventory that describes trees. -/
theorem Describes.read {E : Env} (hlib : E.lib.Lawful) (hcwd : ∀ w ∈ E.cwd, SafeName w) {s σ : FS} (hws : s.WF) {objdir dstdir version : Str}
    {trees : List Tree} {rl : Rec} (hdir : look s (absComps E.cwd objdir) = some .dir)
    (hd0 : Describes E s (absComps E.cwd objdir) trees rl.inv rl.alg rl.m rl.vs)
    (hdσ : Describes E σ (absComps E.cwd objdir) trees rl.inv rl.alg rl.m rl.vs)
    (hstored : look s (absComps E.cwd objdir ++ [inventoryFilename]) = some (.file (utf8 (inventoryText E rl.inv))))
    (hno : NoCollision E.raw (InTrees trees))
    (hout : ¬ absComps E.cwd objdir <+: absComps E.cwd dstdir)
    (hp : look s (dstParent E dstdir) = some .dir) (hvac : Vacant s (absComps E.cwd dstdir)) :
    extractSetup E objdir version s = .error .objectException ∧ (∀ k < trees.length, ¬ AsksFor version trees.length k) ∨
    ∃ k t inv v se md, trees[k]? = some t ∧ AsksFor version trees.length k ∧
      extractSetup E objdir version s = .ok (absComps E.cwd objdir, inv, v) ∧
      run (Ocfl.extract E objdir version dstdir) s = (se, .ok md) ∧ (∀ r b, FileBelow se (absComps E.cwd dstdir) r b ↔ t r b) ∧
      (∀ p ∈ listed (inv.stateOf v), ∃ segs, LogicalPath segs p) ∧
      ∀ c p, (c, p) ∈ extractItems inv.manifestD (inv.stateOf v) → ∃ w r b, r ≠ [] ∧
        FS.resolve (absComps E.cwd objdir) c = absComps E.cwd objdir ++ w :: r ∧
        look σ (absComps E.cwd objdir ++ w :: r) = some (.file b) := by
  have hparse := parse_written hlib hd0.parsed hstored
  have hds := hd0.sorted
  by_cases hk : ∃ k < trees.length, AsksFor version trees.length k
  · right
    obtain ⟨k, hk, ha⟩ := hk
    obtain ⟨t, ht⟩ : ∃ t, trees[k]? = some t := ⟨_, List.getElem?_eq_getElem hk⟩
    obtain ⟨se, md, h1, h2, _⟩ := hd0.extract hlib hcwd hws hdir hstored hno ht ha hout hp hvac
    rcases extractSetup_cases hdir hparse version with he | ⟨v, hset, _⟩
    · have := run_bind_error (p := Prog.look (extractSetup E objdir version)) (s := s) (s1 := s) (e := .objectException)
        (f := fun r => Prog.bind (extractDst E dstdir) (fun dst =>
          Prog.bind (extractState r.1 dst r.2.1.manifestD (r.2.1.stateOf r.2.2)) (fun _ =>
          Prog.ofPy (versionMetadata r.2.1 r.2.2)))) (by rw [run_look, he])
      rw [show run (Ocfl.extract E objdir version dstdir) s = _ from this] at h1
      cases h1
    · obtain ⟨_, _, _, _, _, _, _, _, _, hx, _⟩ := extractSetup_ok hlib hset
      refine ⟨k, t, _, v, se, md, ht, ha, hset, h1, h2, hx.paths, ?_⟩
      intro c p hi
      obtain ⟨d, _, hd⟩ := (hx.item hi).2
      rw [hds.parsed.good.manifestD] at hd
      obtain ⟨w, ws, b, _, _, _, _, k1, k2, _⟩ := hdσ.sorted.segs hd
      exact ⟨w, _, b, by simp, k1, by rw [← k1]; exact k2⟩
  · left
    refine ⟨?_, fun k hk' ha => hk ⟨k, hk', ha⟩⟩
    have hpos : 1 ≤ trees.length := hd0.parsed.numbered.pos
    rcases extractSetup_cases hdir hparse version with he | ⟨v, hset, ⟨h1, _⟩ | ⟨_, hm⟩⟩
    · exact he
    · exact absurd ⟨trees.length - 1, by omega, Or.inr ⟨h1, by omega⟩⟩ hk
    · rw [hds.parsed.good.versionsD] at hm
      obtain ⟨k, h1, h2, h3⟩ := (hds.parsed.good.names.2.2.2 _).mp hm
      refine absurd ⟨k - 1, by omega, Or.inl ?_⟩ hk
      rw [Nat.sub_add_cancel h1]
      exact h3

/-- Where the extraction writes. -/
structure Into (E : Env) (objdir srcdir dstdir : Str) (s0 : FS) : Prop where
  parent : look s0 (dstParent E dstdir) = some .dir
  vacant : Vacant s0 (absComps E.cwd dstdir)
  notIn : ¬ absComps E.cwd objdir <+: absComps E.cwd dstdir
  notAbove : ¬ absComps E.cwd dstdir <+: absComps E.cwd objdir
  notInSource : ¬ absComps E.cwd srcdir <+: absComps E.cwd dstdir
  notAboveSource : ¬ absComps E.cwd dstdir <+: absComps E.cwd srcdir

section
variable {E : Env} {o : Obj} {objdir srcdir dstdir version : Str} {metadata : Option VBlock} {abort : Bool} {trees : List Tree} {s0 : FS} {dv : Str} {recs : List Rec}

theorem Into.apart (h : Into E objdir srcdir dstdir s0) {x : Path} (hx : absComps E.cwd dstdir <+: x) :
    ¬ Around (absComps E.cwd objdir) (absComps E.cwd srcdir) x := by
  rintro ((h1 | h1) | (h1 | h1))
  · exact h.notAbove (hx.trans h1)
  · rcases List.prefix_or_prefix_of_prefix h1 hx with h2 | h2
    · exact h.notIn h2
    · exact h.notAbove h2
  · exact h.notAboveSource (hx.trans h1)
  · rcases List.prefix_or_prefix_of_prefix h1 hx with h2 | h2
    · exact h.notInSource h2
    · exact h.notAboveSource h2

/-- The directories above the destination are there. -/
def Above (dst : Path) (s : FS) : Prop := ∀ x, x <+: dst → x ≠ dst → look s x = some .dir

/-- The destination is as it was. -/
def Unwritten (dst : Path) (s0 s : FS) : Prop := ∀ x, dst <+: x → look s x = look s0 x

theorem Into.above (h : Into E objdir srcdir dstdir s0) (hw : s0.WF) : Above (absComps E.cwd dstdir) s0 := by
  intro x hx hne
  by_cases hd : look s0 (absComps E.cwd dstdir) = some .dir
  · exact look_prefix hw hx hne hd
  · have hlast := dst_above hw h.parent hd
    have hxd : x <+: (absComps E.cwd dstdir).dropLast := by
      obtain ⟨r, hr⟩ := hx
      have hrne : r ≠ [] := by
        rintro rfl
        exact hne (by rw [← hr]; simp)
      rw [← hr, List.dropLast_append_of_ne_nil hrne]
      exact List.prefix_append _ _
    rw [hlast] at hxd
    by_cases he : x = dstParent E dstdir
    · rw [he]; exact h.parent
    · exact look_prefix hw hxd he h.parent

/-- The destination is ready. -/
theorem Into.ready (h : Into E objdir srcdir dstdir s0) {s : FS} (ha : Above (absComps E.cwd dstdir) s)
    (hc : Unwritten (absComps E.cwd dstdir) s0 s) : look s (dstParent E dstdir) = some .dir ∧ Vacant s (absComps E.cwd dstdir) := by
  constructor
  · by_cases he : dstParent E dstdir = absComps E.cwd dstdir
    · rw [he, hc _ List.prefix_rfl, ← he]
      exact h.parent
    · exact ha _ (dstParent_near h.parent h.vacant) he
  · refine ⟨?_, fun r hr => ?_⟩
    · rw [hc _ List.prefix_rfl]
      exact h.vacant.1
    · rw [hc _ (List.prefix_append _ _)]
      exact h.vacant.2 r hr

/-- The trees of the versions that may be read: those that the object has and the one that is added. -/
def MayRead (version : Str) (trees : List Tree) (new : Tree) (t : Tree) : Prop :=
  ∃ k, (trees ++ [new])[k]? = some t ∧ (AsksFor version trees.length k ∨ AsksFor version (trees.length + 1) k)

/-- The errors of an extraction of a version that is there. -/
def MayRaise (version : Str) (n : Nat) (e : PyErr) : Prop :=
  (∃ k < n, AsksFor version n k) → e = .jsonDecodeError ∨ e = .unicodeError

theorem extractSetup_error {s : FS} {e : PyErr} (hd : look s (absComps E.cwd objdir) = some .dir)
    (hp : parseInventory E (absComps E.cwd objdir) s = .error e) : extractSetup E objdir version s = .error e := by
  unfold extractSetup
  rw [openObj_dir hd]
  dsimp only
  rw [hp]

/-- What an extraction finds when it begins. -/
theorem read_first (h : Updating E o objdir srcdir metadata trees s0 dv recs) (hcwd : ∀ w ∈ E.cwd, SafeName w) (hpre : E.lib.NoPrefix)
    (hin : Into E objdir srcdir dstdir s0) {q : Prog (Option Inv)} {s : FS} (hs : s.WF)
    (hi : UpdInv E o objdir srcdir metadata abort s0 q s) (ha : Above (absComps E.cwd dstdir) s) (hc : Unwritten (absComps E.cwd dstdir) s0 s) :
    (∃ e, extractSetup E objdir version s = .error e ∧ MayRaise version trees.length e) ∨
    ∃ t inv v se md σ, MayRead version trees (FileBelow s0 (absComps E.cwd srcdir)) t ∧
      extractSetup E objdir version s = .ok (absComps E.cwd objdir, inv, v) ∧
      run (extract E objdir version dstdir) s = (se, .ok md) ∧ (∀ r b, FileBelow se (absComps E.cwd dstdir) r b ↔ t r b) ∧
      σ.WF ∧ (σ = s0 ∨ UpdPast E o objdir srcdir σ q s) ∧ (∀ p ∈ listed (inv.stateOf v), ∃ segs, LogicalPath segs p) ∧
      ∀ c p, (c, p) ∈ extractItems inv.manifestD (inv.stateOf v) → ∃ w r b, r ≠ [] ∧
        FS.resolve (absComps E.cwd objdir) c = absComps E.cwd objdir ++ w :: r ∧
        look σ (absComps E.cwd objdir ++ w :: r) = some (.file b) := by
  obtain ⟨hp, hvac⟩ := hin.ready ha hc
  have hin' : ∀ r, Around (absComps E.cwd objdir) (absComps E.cwd srcdir) (absComps E.cwd objdir ++ r) :=
    fun r => Or.inl (Or.inr (List.prefix_append _ _))
  have hdir : look s (absComps E.cwd objdir) = some .dir := by
    rw [hi.lasting h hs (by simpa using hin' []) (Or.inl h.sound.isDir)]
    exact h.sound.isDir
  obtain ⟨s1, m, hw1, hwm, ha1, hv, ham, hroot⟩ := hi.moment h hs
  by_cases hold : look m (absComps E.cwd objdir ++ [inventoryFilename]) = look s1 (absComps E.cwd objdir ++ [inventoryFilename])
  · -- the old inventory
    obtain ⟨rl, _, hd0, hstored, _, _⟩ := h.sound.last
    have hd : Describes E s (absComps E.cwd objdir) trees rl.inv rl.alg rl.m rl.vs := hd0.keeps (fun w r b hr hl => by
      rw [hi.lasting h hs (hin' _) (Or.inr ⟨by rw [hl]; simp, w, r, hr, rfl⟩)]
      exact hl)
    have hst : look s (absComps E.cwd objdir ++ [inventoryFilename]) = some (.file (utf8 (inventoryText E rl.inv))) := by
      rw [ham _ (hin' _), hold, ha1 _ (hin' _)]
      exact hstored.1
    rcases hd.read (version := version) h.lib hcwd hs hdir hd0 hst h.apart' hin.notIn hp hvac with ⟨he, hno⟩ |
        ⟨k, t, inv, v, se, md, k1, k2, k3, k4, k5, k6, k7⟩
    · exact Or.inl ⟨_, he, fun ⟨k, hk, hk'⟩ => absurd hk' (hno k hk)⟩
    · have hk : k < trees.length := by
        by_contra hc
        rw [List.getElem?_eq_none (by omega)] at k1
        cases k1
      exact Or.inr ⟨t, inv, v, se, md, s0, ⟨k, by rw [List.getElem?_append_left hk]; exact k1, Or.inl k2⟩, k3, k4, k5, h.sound.wf,
        Or.inl rfl, k6, k7⟩
  · -- the new inventory
    obtain ⟨σ, hσ⟩ : ∃ σ, UpdPast E o objdir srcdir σ q s := by
      rcases hroot with he | he
      · exact absurd he hold
      · exact he
    have hs1 := h.at hw1 ha1
    have htree := sameTree ha1
    rcases update_finishes h.lib h.hash h.alg hs1 hv with he | ⟨e, inv, head, alg, n, text, hrun, hd1, hd2, hdeep, ht1, ht2, ht3⟩
    · exact absurd he hold
    obtain ⟨r, hrinv, _, hs'⟩ := hs1.update h.lib h.hash h.alg h.block h.apart' h.few rfl (by rw [htree]; exact h.names) hrun
    rw [htree] at hs'
    obtain ⟨rl, hlast, hd0, hstored, _, _⟩ := hs'.last
    have hkept : ∀ w q b, q ≠ [] → look e (absComps E.cwd objdir ++ w :: q) = some (.file b) →
        look s (absComps E.cwd objdir ++ w :: q) = some (.file b) := by
      intro w q b hq hl
      rw [ham _ (hin' _)]
      by_cases hl0 : look s1 (absComps E.cwd objdir ++ w :: q) = none
      · rw [hdeep _ (hd2.added _ (rootInventory_short hq) hl0 (by rw [hl]; simp))]
        exact hl
      · rw [hd1.kept _ (rootInventory_short hq) hl0, ← hd2.kept _ (rootInventory_short hq) hl0]
        exact hl
    have hd := hd0.keeps hkept
    have hdσ : Describes E σ (absComps E.cwd objdir) (trees ++ [FileBelow s0 (absComps E.cwd srcdir)]) rl.inv rl.alg rl.m rl.vs :=
      hd.keeps (fun w q b hq hl => by rw [← hσ.deep hq]; exact hl)
    have htext : text = utf8 (inventoryText E rl.inv) := by
      have := hstored.1
      rw [ht1] at this
      cases this
      rfl
    have hpart : look s (absComps E.cwd objdir ++ [inventoryFilename]) = some (.file ((utf8 (inventoryText E rl.inv)).take n)) := by
      rw [ham _ (hin' _), ← htext]
      exact ht3
    rcases parse_part hpre hd0.parsed.good.keys hpart with hst | hpe | hpe
    · rcases hd.read (version := version) h.lib hcwd hs hdir hdσ hst h.apart hin.notIn hp hvac with ⟨he, hno⟩ |
        ⟨k, t, inv, v, se, md, k1, k2, k3, k4, k5, k6, k7⟩
      · refine Or.inl ⟨_, he, fun ⟨k, hk, hk'⟩ => ?_⟩
        simp only [List.length_append, List.length_cons, List.length_nil] at hno
        rcases hk' with hk' | ⟨hk', _⟩
        · exact absurd (Or.inl hk') (hno k (by omega))
        · exact absurd (Or.inr ⟨hk', rfl⟩) (hno trees.length (by omega))
      · refine Or.inr ⟨t, inv, v, se, md, σ, ⟨k, k1, Or.inr ?_⟩, k3, k4, k5, hσ.1, Or.inr hσ, k6, k7⟩
        simpa using k2
    · exact Or.inl ⟨_, extractSetup_error hdir hpe, fun _ => Or.inr rfl⟩
    · exact Or.inl ⟨_, extractSetup_error hdir hpe, fun _ => Or.inl rfl⟩

/-! ## The invariant -/

/-- What the extraction depends on after it has read the inventory. -/
def ReadsOf (base src dst : Path) (σ : FS) (x : Path) : Prop := Near dst x ∨ Around base src x ∧ Lasting base σ x

/-- How far an extraction has come. -/
def ReadInv (E : Env) (o : Obj) (objdir srcdir dstdir version : Str) (trees : List Tree) (s0 : FS) (p : Prog VMeta) (q : Prog (Option Inv)) (s : FS) : Prop :=
  (p = extract E objdir version dstdir ∨ ∃ e, p = .ret (.error e) ∧ MayRaise version trees.length e) ∧ Unwritten (absComps E.cwd dstdir) s0 s ∨
  ∃ sa σ p1 md t se, sa.WF ∧ Local (ReadsOf (absComps E.cwd objdir) (absComps E.cwd srcdir) (absComps E.cwd dstdir) σ) p1 ∧
    Only (InDst (absComps E.cwd dstdir)) p1 ∧
    Follows (ReadsOf (absComps E.cwd objdir) (absComps E.cwd srcdir) (absComps E.cwd dstdir) σ) p1 sa p s ∧
    run p1 sa = (se, .ok md) ∧ (∀ r b, FileBelow se (absComps E.cwd dstdir) r b ↔ t r b) ∧
    MayRead version trees (FileBelow s0 (absComps E.cwd srcdir)) t ∧ (σ = s0 ∨ UpdPast E o objdir srcdir σ q s)

/-- Everything together. -/
structure Both (E : Env) (o : Obj) (objdir srcdir dstdir version : Str) (metadata : Option VBlock) (abort : Bool) (trees : List Tree) (s0 : FS)
    (p : Prog VMeta) (q : Prog (Option Inv)) (s : FS) : Prop where
  wf : s.WF
  above : Above (absComps E.cwd dstdir) s
  upd : UpdInv E o objdir srcdir metadata abort s0 q s
  read : ReadInv E o objdir srcdir dstdir version trees s0 p q s

theorem Both.start (h : Updating E o objdir srcdir metadata trees s0 dv recs) (hin : Into E objdir srcdir dstdir s0) :
    Both E o objdir srcdir dstdir version metadata abort trees s0 (extract E objdir version dstdir)
      (addVersionWithContent E o objdir (some srcdir) metadata abort) s0 :=
  ⟨h.sound.wf, hin.above h.sound.wf, Or.inl ⟨rfl, .refl⟩, Or.inl ⟨Or.inl rfl, fun _ _ => rfl⟩⟩

theorem lasting_same (h : Updating E o objdir srcdir metadata trees s0 dv recs) {q : Prog (Option Inv)} {s σ : FS} (hs : s.WF)
    (hi : UpdInv E o objdir srcdir metadata abort s0 q s) (hσ : σ = s0 ∨ UpdPast E o objdir srcdir σ q s) {x : Path}
    (hx : Around (absComps E.cwd objdir) (absComps E.cwd srcdir) x) (hl : Lasting (absComps E.cwd objdir) σ x) : look s x = look σ x := by
  rcases hσ with rfl | hσ
  · exact hi.lasting h hs hx hl
  · exact hσ.lasting hx hl

/-- A step of the update. -/
theorem Both.right (h : Updating E o objdir srcdir metadata trees s0 dv recs) (hin : Into E objdir srcdir dstdir s0)
    {p : Prog VMeta} {q q' : Prog (Option Inv)} {s s' : FS} (hb : Both E o objdir srcdir dstdir version metadata abort trees s0 p q s)
    (hst : Concurrent.Step q s q' s') : Both E o objdir srcdir dstdir version metadata abort trees s0 p q' s' := by
  obtain ⟨hi', hw', hframe⟩ := hb.upd.step h hb.wf hst
  have habove : Above (absComps E.cwd dstdir) s' := by
    intro x hx hne
    by_cases hA : Around (absComps E.cwd objdir) (absComps E.cwd srcdir) x
    · have h0 := hin.above h.sound.wf x hx hne
      rw [hi'.lasting h hw' hA (Or.inl h0)]
      exact h0
    · rw [hframe x hA]
      exact hb.above x hx hne
  have hclean : ∀ x, absComps E.cwd dstdir <+: x → look s' x = look s x := fun x hx => hframe x (hin.apart hx)
  refine ⟨hw', habove, hi', ?_⟩
  rcases hb.read with ⟨hp, hc⟩ | ⟨sa, σ, p1, md, t, se, k1, k2, k3, k4, k5, k6, k7, k8⟩
  · exact Or.inl ⟨hp, fun x hx => (hclean x hx).trans (hc x hx)⟩
  · have k8' : σ = s0 ∨ UpdPast E o objdir srcdir σ q' s' := by
      rcases k8 with k8 | k8
      · exact Or.inl k8
      · exact Or.inr (k8.step h hb.wf hst)
    refine Or.inr ⟨sa, σ, p1, md, t, se, k1, k2, k3, k4.stay ?_, k5, k6, k7, k8'⟩
    rintro x ((hx | hx) | ⟨hx, hl⟩)
    · by_cases hne : x = absComps E.cwd dstdir
      · exact hclean x (by rw [hne]; exact List.prefix_rfl)
      · rw [habove x hx hne, hb.above x hx hne]
    · exact hclean x hx
    · rw [lasting_same h hw' hi' k8' hx hl, lasting_same h hb.wf hb.upd k8 hx hl]

/-- Work elsewhere. -/
theorem Both.other {p : Prog VMeta} {q : Prog (Option Inv)} {s s' : FS}
    (hb : Both E o objdir srcdir dstdir version metadata abort trees s0 p q s)
    (hst : Elsewhere [absComps E.cwd objdir, absComps E.cwd srcdir, absComps E.cwd dstdir] s s') :
    Both E o objdir srcdir dstdir version metadata abort trees s0 p q s' := by
  obtain ⟨hw, he⟩ := hst
  have hA : Agree (Around (absComps E.cwd objdir) (absComps E.cwd srcdir)) s' s := by
    rintro x (hx | hx)
    · exact he _ (by simp) x hx
    · exact he _ (by simp) x hx
  have hD : ∀ x, Near (absComps E.cwd dstdir) x → look s' x = look s x := fun x hx => he _ (by simp) x hx
  refine ⟨hw hb.wf, fun x hx hne => ?_, hb.upd.stay hA, ?_⟩
  · rw [hD x (Or.inl hx)]
    exact hb.above x hx hne
  rcases hb.read with ⟨hp, hc⟩ | ⟨sa, σ, p1, md, t, se, k1, k2, k3, k4, k5, k6, k7, k8⟩
  · exact Or.inl ⟨hp, fun x hx => (hD x (Or.inr hx)).trans (hc x hx)⟩
  · refine Or.inr ⟨sa, σ, p1, md, t, se, k1, k2, k3, k4.stay ?_, k5, k6, k7, ?_⟩
    · rintro x (hx | ⟨hx, _⟩)
      · exact hD x hx
      · exact hA x hx
    · rcases k8 with k8 | k8
      · exact Or.inl k8
      · exact Or.inr (k8.stay hA)

/-- A step in the destination changes nothing else. -/
theorem inDst_step {α : Type} {dst : Path} {p p' : Prog α} {s s' : FS} (ho : Only (InDst dst) p) (ha : Above dst s) (h : Concurrent.Step p s p' s') :
    ∀ x, ¬ dst <+: x → look s' x = look s x := by
  intro x hx
  have key : ∀ op, InDst dst op → look (FS.exec op s).1 x = look s x := by
    rintro op (hop | ⟨y, hy, rfl⟩)
    · exact exec_frame (fun he => hx (he ▸ hop))
    · by_cases he : y = x
      · subst he
        refine exec_mkdir_keeps ?_
        rw [ha y hy (by rintro rfl; exact hx List.prefix_rfl)]
        simp
      · exact exec_frame he
  cases h with
  | get => rfl
  | op => cases ho with | op hop _ => exact key _ hop
  | @part q b k _ n =>
    cases ho with
    | op hop _ =>
      refine key _ ?_
      rcases hop with hop | ⟨y, _, hy⟩
      · exact Or.inl hop
      · cases hy

/-- A step of the extraction. -/
theorem Both.left (h : Updating E o objdir srcdir metadata trees s0 dv recs) (hcwd : ∀ w ∈ E.cwd, SafeName w) (hpre : E.lib.NoPrefix)
    (hin : Into E objdir srcdir dstdir s0)
    {p p' : Prog VMeta} {q : Prog (Option Inv)} {s s' : FS} (hb : Both E o objdir srcdir dstdir version metadata abort trees s0 p q s)
    (hst : Concurrent.Step p s p' s') : Both E o objdir srcdir dstdir version metadata abort trees s0 p' q s' := by
  rcases hb.read with ⟨rfl | ⟨e, rfl, _⟩, hc⟩ | ⟨sa, σ, p1, md, t, se, k1, k2, k3, k4, k5, k6, k7, k8⟩
  · -- the first look
    obtain ⟨rfl, hcase⟩ := extract_step hst
    refine ⟨hb.wf, hb.above, hb.upd, ?_⟩
    rcases read_first (version := version) h hcwd hpre hin hb.wf hb.upd hb.above hc with ⟨e, he, hr⟩ |
        ⟨t, inv, v, se, md, σ, r1, r2, r3, r4, r5, r6, r7, r8⟩
    · rcases hcase with ⟨e', he', rfl⟩ | ⟨inv, v, he', _⟩
      · rw [he] at he'
        cases he'
        exact Or.inl ⟨Or.inr ⟨e, rfl, hr⟩, hc⟩
      · rw [he] at he'
        cases he'
    · rcases hcase with ⟨e', he', rfl⟩ | ⟨inv', v', he', rfl⟩
      · rw [r2] at he'
        cases he'
      rw [r2] at he'
      cases he'
      have hsafe : ∀ w ∈ absComps E.cwd dstdir, SafeName w := fun w hw => absComps_safe hcwd dstdir w hw
      have hnear : ∀ x, Near (absComps E.cwd dstdir) x → ReadsOf (absComps E.cwd objdir) (absComps E.cwd srcdir) (absComps E.cwd dstdir) σ x :=
        fun x hx => Or.inl hx
      refine Or.inr ⟨_, σ, extractNext E objdir dstdir inv v, md, t, se, hb.wf, ?_, ?_, .start .refl, ?_, r4, r1, r6⟩
      · refine local_extractDst_bind hsafe (dstParent_near hin.parent hin.vacant) hnear (.bind (local_extractState hsafe hnear r7 ?_) (fun _ => .ret))
        intro c pth hi x hx
        obtain ⟨w, r, b, hr, he, hl⟩ := r8 c pth hi
        rw [he] at hx
        refine Or.inr ⟨Or.inl (near_of_prefix hx), ?_⟩
        by_cases hxe : x = absComps E.cwd objdir ++ w :: r
        · exact Or.inr ⟨by rw [hxe, hl]; simp, w, r, hr, hxe⟩
        · exact Or.inl (look_prefix r5 hx hxe hl)
      · exact inDst_extractDst_bind (.bind (inDst_extractState r7) (fun _ => .ret))
      · rw [run_extractNext r2]
        exact r3
  · cases hst
  · obtain ⟨tt, mm, hreach, _, _⟩ := id k4
    have hout := inDst_step (hreach.only k3) hb.above hst
    have hwf := (local_step (hreach.local k2) hb.wf hst).1
    have hA : Agree (Around (absComps E.cwd objdir) (absComps E.cwd srcdir)) s' s := by
      intro x hx
      exact hout x (fun hd => hin.apart hd hx)
    refine ⟨hwf, fun x hx hne => ?_, hb.upd.stay hA, Or.inr ⟨sa, σ, p1, md, t, se, k1, k2, k3, k4.step k1 hb.wf k2 hst, k5, k6, k7, ?_⟩⟩
    · rw [hout x (fun hd => hne (List.Sublist.antisymm hx.sublist hd.sublist))]
      exact hb.above x hx hne
    · rcases k8 with k8 | k8
      · exact Or.inl k8
      · exact Or.inr (k8.stay hA)

/-- At every moment. -/
theorem together_both (h : Updating E o objdir srcdir metadata trees s0 dv recs) (hcwd : ∀ w ∈ E.cwd, SafeName w) (hpre : E.lib.NoPrefix)
    (hin : Into E objdir srcdir dstdir s0) {p : Prog VMeta} {q : Prog (Option Inv)} {s : FS}
    (ht : Concurrent.Together (Elsewhere [absComps E.cwd objdir, absComps E.cwd srcdir, absComps E.cwd dstdir])
      (extract E objdir version dstdir) (addVersionWithContent E o objdir (some srcdir) metadata abort) s0 p q s) :
    Both E o objdir srcdir dstdir version metadata abort trees s0 p q s := by
  induction ht with
  | here => exact .start h hin
  | left _ hst ih => exact ih.left h hcwd hpre hin hst
  | right _ hst ih => exact ih.right h hin hst
  | other _ hst ih => exact ih.other hst

/-- When the extraction is done. -/
theorem Both.extracted {md : VMeta} {q : Prog (Option Inv)} {s : FS}
    (hb : Both E o objdir srcdir dstdir version metadata abort trees s0 (.ret (.ok md)) q s) :
    ∃ t, MayRead version trees (FileBelow s0 (absComps E.cwd srcdir)) t ∧ ∀ r b, FileBelow s (absComps E.cwd dstdir) r b ↔ t r b := by
  rcases hb.read with ⟨h | ⟨e, h, _⟩, _⟩ | ⟨sa, σ, p1, md', t, se, k1, k2, k3, ⟨tt, mm, hr, hm, hag⟩, k5, k6, k7, k8⟩
  · cases h
  · cases h
  · have he := hr.ended
    rw [k5] at he
    cases he
    cases hm
    refine ⟨t, k7, fun r b => ?_⟩
    rw [← k6 r b]
    unfold FileBelow
    rw [hag _ (Or.inl (Or.inr (List.prefix_append _ _)))]

/-- When the extraction has failed. -/
theorem Both.failed {e : PyErr} {q : Prog (Option Inv)} {s : FS}
    (hb : Both E o objdir srcdir dstdir version metadata abort trees s0 (.ret (.error e)) q s) :
    MayRaise version trees.length e ∧ Unwritten (absComps E.cwd dstdir) s0 s := by
  rcases hb.read with ⟨h | ⟨e, h, hr⟩, hc⟩ | ⟨sa, σ, p1, md', t, se, k1, k2, k3, ⟨tt, mm, hr, hm, hag⟩, k5, k6, k7, k8⟩
  · cases h
  · cases h
    exact ⟨hr, hc⟩
  · have he := hr.ended
    rw [k5] at he
    cases he

/-- When the update is done. -/
theorem UpdInv.ended {r : Py (Option Inv)} {s : FS} (hi : UpdInv E o objdir srcdir metadata abort s0 (.ret r) s) :
    ∃ s1 e, s1.WF ∧ Agree (Around (absComps E.cwd objdir) (absComps E.cwd srcdir)) s1 s0 ∧
      run (addVersionWithContent E o objdir (some srcdir) metadata abort) s1 = (e, r) ∧
      Agree (Around (absComps E.cwd objdir) (absComps E.cwd srcdir)) s e := by
  rcases hi with ⟨h, _⟩ | ⟨s1, hw1, ha1, tt, mm, hr, hm, hag⟩
  · cases h
  · cases hm
    exact ⟨s1, tt, hw1, ha1, hr.ended, hag⟩

end

end Ocfl
