import Verif.Proofs.Local
import Verif.Proofs.ExtractSame
import Verif.Props.Crash

/-!
# What an update and an extraction depend on

Writing a new version depends on the object directory and the source directory only, and an extraction, once it
has read the inventory, on the destination and the content files that it copies.
-/

namespace Ocfl

open Spec FS Prog Ocfl.Inv

/-- Above or below. -/
def Near (p x : Path) : Prop := x <+: p ∨ p <+: x

theorem near_of_prefix {p x : Path} {r : List Str} (h : x <+: p ++ r) : Near p x :=
  List.prefix_or_prefix_of_prefix h (List.prefix_append p r)

theorem Near.up {p x y : Path} (h : Near p x) (hy : y <+: x) : Near p y := by
  rcases h with h | ⟨r, rfl⟩
  · exact Or.inl (hy.trans h)
  · exact near_of_prefix hy

variable {B : Path → Prop}

/-! ## Writing a version -/

theorem local_removeOldSidecar {base : Path} {nv : NV} (hb : ∀ w ∈ base, SafeName w) (hB : ∀ x, Near base x → B x)
    (hold : ∀ old, nv.oldDigestAlgorithm = some old → '/' ∉ old) : Local B (removeOldSidecar base nv) := by
  unfold removeOldSidecar
  split
  · exact .ret
  · rename_i old ho
    have hsafe := sidecar_safe (hold old ho)
    have e : inventoryFilename ++ c!"." ++ old = sidecarName old := rfl
    rw [e, resolve_name base hsafe]
    exact .ite (fun _ => local_rm (safe_append hb (by simpa using hsafe)) (fun x hx => hB x (near_of_prefix hx))) (fun _ => .ret)

theorem local_copyIntoObject {base src : Path} {head f : Str} {c : Str} (hb : ∀ w ∈ base, SafeName w) (hh : SafeName head)
    (hB : ∀ x, Near base x → B x) (hsrc : ∀ x, x <+: FS.resolve src f → B x)
    (hc : ∃ ws, ws ≠ [] ∧ (∀ w ∈ ws, SafeName w) ∧ c = pathOf (head :: ws)) :
    Local B (copyIntoObject base src f c) := by
  obtain ⟨ws, hne, hs, rfl⟩ := hc
  have hs' : ∀ w ∈ head :: ws, SafeName w := by
    intro w hw
    rcases List.mem_cons.mp hw with rfl | hw
    · exact hh
    · exact hs w hw
  unfold copyIntoObject
  rw [resolve_dirname hs' (by simp), resolve_pathOf base hs']
  refine .get (fun s s' _ _ ha => ?_) (fun s => .bind (.ite (fun _ => ?_) (fun _ => .ret)) (fun _ => ?_))
  · rw [exists_agree (ha _ (hB _ (near_of_prefix List.prefix_rfl)))]
  · exact local_makedirs (safe_append hb (fun w hw => hs' w (List.dropLast_subset _ hw))) (fun x hx => hB x (near_of_prefix hx)) _
  · exact local_copyfile (safe_append hb hs') hsrc (fun x hx => hB x (near_of_prefix hx))

theorem local_writeInv {E : Env} {o : Obj} {base : Path} {inv : Option Inv} {vdir : Str} {vd : Path} (hb : ∀ w ∈ base, SafeName w)
    (hB : ∀ x, Near base x → B x) (hv : VDir vdir vd) : Local B (writeInventoryAndSidecar E o base inv vdir) := by
  have hvd : ∀ w ∈ vd, SafeName w := by
    cases hv with
    | root => simp
    | version h => simpa using h
  have hin : ∀ {r x : List Str}, x <+: base ++ vd ++ r → B x := fun {r x} hx =>
    hB x (near_of_prefix (r := vd ++ r) (by rw [← List.append_assoc]; exact hx))
  unfold writeInventoryAndSidecar
  rw [hv.resolve, hv.resolve_in base (w := inventoryFilename) (by decide)]
  refine .get (fun s s' _ _ ha => ?_) (fun s => .bind (.ite (fun _ => ?_) (fun _ => .ret)) (fun _ => .bind ?_ (fun _ => .look_bind ?_ ?_)))
  · rw [exists_agree (ha _ (hB _ (near_of_prefix List.prefix_rfl)))]
  · exact local_makedir (safe_append hb hvd) (fun x hx => hB x (near_of_prefix hx))
  · cases inv with
    | none => exact .ret
    | some i => exact .perform (safe_append (safe_append hb hvd) (by simp; decide)) (fun x hx => hin hx)
  · intro s s' _ _ ha
    exact digestAt_agree (fun x hx => ha x (hin hx))
  · intro s' d hd
    obtain ⟨b, _, hfd⟩ := digestAt_ok.mp hd
    have hsafe := sidecar_safe (fileDigest_noSlash hfd)
    have e : inventoryFilename ++ c!"." ++ o.digestAlgorithm = sidecarName o.digestAlgorithm := rfl
    rw [e, hv.resolve_in base hsafe]
    exact .perform (safe_append (safe_append hb hvd) (by simpa using hsafe)) (fun x hx => hin hx)

theorem local_putVersion {E : Env} {o : Obj} {base src : Path} {nv : NV} {head : Str} (hb : ∀ w ∈ base, SafeName w) (hh : SafeName head)
    (hB : ∀ x, Near base x → B x) (hsrc : ∀ e ∈ nv.filesToCopy, ∀ x, x <+: FS.resolve src e.1 → B x)
    (hq : QueueInside head nv.filesToCopy) (hold : ∀ old, nv.oldDigestAlgorithm = some old → '/' ∉ old) :
    Local B (putVersion E o base src nv head) := by
  unfold putVersion
  refine .bind (local_removeOldSidecar hb hB hold) (fun _ => .bind ?_ (fun _ => .bind ?_ (fun _ => local_writeInv hb hB (.version hh))))
  · rw [resolve_name base hh]
    exact local_makedir (safe_append hb (by simpa using hh)) (fun x hx => hB x (near_of_prefix hx))
  · exact .forEach (fun e he => local_copyIntoObject hb hh hB (hsrc e he) (hq e he))

/-! ## Extracting -/

theorem children_empty {s : FS} (hw : s.WF) {p : Path} : (children s p).length > 0 ↔ ∃ w, look s (p ++ [w]) ≠ none := by
  constructor
  · intro h
    cases hc : children s p with
    | nil => rw [hc] at h; simp at h
    | cons e l =>
      obtain ⟨w, n⟩ := e
      have : (w, n) ∈ children s p := by rw [hc]; simp
      exact ⟨w, by rw [(mem_children hw).mp this]; simp⟩
  · rintro ⟨w, hl⟩
    cases hx : look s (p ++ [w]) with
    | none => exact absurd hx hl
    | some n => exact List.length_pos_of_mem ((mem_children hw).mpr hx)

theorem listdir_length {s : FS} {base : Path} {path : Str} {l : List (Str × Bool)} (h : look s (resolve base path) = some .dir)
    (hl : listdir s base path = .ok l) : l.length = (children s (resolve base path)).length := by
  obtain ⟨l', h1, h2⟩ := listdir_dir base path h
  rw [hl] at h1
  cases h1
  exact h2

theorem local_prepareDst {pbase : Path} {dir : Str} {dst : Path} (hd : FS.resolve pbase dir = dst) (hs : ∀ w ∈ dst, SafeName w)
    (hB : ∀ x, Near dst x → B x) : Local B (Prog.get (prepareDst pbase dir)) := by
  refine .get (fun s s' hw hw' ha => ?_) (fun s => ?_)
  · unfold prepareDst
    rw [hd]
    have e1 : look s dst = look s' dst := ha _ (hB _ (Or.inl List.prefix_rfl))
    rw [isdir_agree e1]
    by_cases hid : isdir s' dst = true
    · rw [if_pos hid, if_pos hid]
      have hd1 : look s' (resolve pbase dir) = some .dir := by rw [hd]; exact isdir_iff.mp hid
      have hd2 : look s (resolve pbase dir) = some .dir := by rw [hd, e1]; exact isdir_iff.mp hid
      obtain ⟨l1, k1, k2⟩ := listdir_dir pbase dir hd2
      obtain ⟨l2, k3, k4⟩ := listdir_dir pbase dir hd1
      rw [k1, k3]
      dsimp only
      have : l1.length > 0 ↔ l2.length > 0 := by
        rw [k2, k4, children_empty hw, children_empty hw', hd]
        constructor
        · rintro ⟨w, hl⟩; exact ⟨w, by rw [← ha _ (hB _ (Or.inr (List.prefix_append _ _)))]; exact hl⟩
        · rintro ⟨w, hl⟩; exact ⟨w, by rw [ha _ (hB _ (Or.inr (List.prefix_append _ _)))]; exact hl⟩
      by_cases h1 : l1.length > 0
      · rw [if_pos h1, if_pos (this.mp h1)]
      · rw [if_neg h1, if_neg (fun h => h1 (this.mpr h))]
    · rw [if_neg hid, if_neg hid]
  · unfold prepareDst
    refine .ite (fun _ => ?_) (fun _ => ?_)
    · split
      · exact .ret
      · exact .ite (fun _ => .ret) (fun _ => .ret)
    · rw [hd]
      exact local_makedir hs (fun x hx => hB x (Or.inl hx))

/-- The directory that is opened is the destination or lies above it. -/
theorem dstParent_near {E : Env} {dstdir : Str} {s : FS} (hp : look s (dstParent E dstdir) = some .dir)
    (hvac : Vacant s (absComps E.cwd dstdir)) : dstParent E dstdir <+: absComps E.cwd dstdir := by
  obtain ⟨h1, h2⟩ := dstParent_resolve E dstdir
  rw [resolve_no_slash h2] at h1
  rcases normStep_cases (dstParent E dstdir) (osPathSplit (osNormpath dstdir)).2 with e | e | e
  · rw [← h1, e]
    exact List.prefix_rfl
  · rw [e] at h1
    have hx := List.dropLast_prefix (dstParent E dstdir)
    rw [h1] at hx
    obtain ⟨r, hr⟩ := hx
    by_cases hn : r = []
    · rw [hn, List.append_nil] at hr
      rw [← hr]
      exact List.prefix_rfl
    · have := hvac.2 r hn
      rw [hr, hp] at this
      cases this
  · rw [← h1, e]
    exact List.prefix_append _ _

theorem local_extractDst {E : Env} {dstdir : Str} (hs : ∀ w ∈ absComps E.cwd dstdir, SafeName w)
    (hp : dstParent E dstdir <+: absComps E.cwd dstdir) (hB : ∀ x, Near (absComps E.cwd dstdir) x → B x) : Local B (extractDst E dstdir) := by
  unfold extractDst
  dsimp only
  refine .look_bind ?_ ?_
  · intro s s' _ _ ha
    unfold openObj fswOpen
    dsimp only
    rw [isdir_agree (p := absComps E.cwd (osPathSplit (osNormpath dstdir)).1) (ha _ (hB _ (Or.inl hp)))]
  · intro s pbase hpb
    obtain ⟨rfl, _⟩ := openObj_ok hpb
    exact .bind (local_prepareDst (dstParent_resolve E dstdir).1 hs hB) (fun _ => .ret)

theorem local_extractState {base dst : Path} {m : DigestMap} (hs : ∀ w ∈ dst, SafeName w) (hB : ∀ x, Near dst x → B x) :
    ∀ {st : DigestMap}, (∀ p ∈ listed st, ∃ segs, LogicalPath segs p) →
    (∀ c p, (c, p) ∈ extractItems m st → ∀ x, x <+: FS.resolve base c → B x) → Local B (extractState base dst m st)
  | [], _, _ => .ret
  | (d, files) :: rest, h, hc => by
    unfold extractState
    cases hf : firstPath m d with
    | error e => exact .ret
    | ok f =>
    show Local B (Prog.bind (Prog.forEach (extractOne base dst f) files) (fun _ => extractState base dst m rest))
    refine .bind (.forEach (fun p hp => ?_)) (fun _ => local_extractState hs hB (fun p hp => ?_) (fun c p hi => ?_))
    · obtain ⟨segs, hsg⟩ := h p (by rw [listed_cons]; exact List.mem_append_left _ hp)
      have hl := logical_resolve hsg dst
      unfold extractOne
      rw [hl.1, hl.2.1]
      have hsafe := safe_append hs hsg.2.1
      refine .bind (local_makedirs (fun w hw => hsafe w (List.dropLast_subset _ hw)) (fun x hx => ?_) _) (fun _ =>
        local_copyfile hsafe (hc f p ?_) (fun x hx => hB x (near_of_prefix hx)))
      · exact hB x (near_of_prefix (hx.trans (List.dropLast_prefix _)))
      · unfold extractItems
        rw [List.flatMap_cons, List.mem_append]
        refine Or.inl (List.mem_map.mpr ⟨p, hp, ?_⟩)
        show (firstOf m d, p) = (f, p)
        unfold firstOf
        rw [hf]
    · exact h p (by rw [listed_cons]; exact List.mem_append_right _ hp)
    · refine hc c p ?_
      unfold extractItems
      rw [List.flatMap_cons, List.mem_append]
      exact Or.inr hi

/-- The operations of an extraction are in the destination, or make directories above it. -/
def InDst (dst : Path) (o : FS.Op) : Prop := dst <+: o.target ∨ ∃ x, x <+: dst ∧ o = .mkdir x

theorem inDst_makedirs {dst p : Path} (hp : Near dst p) (eo : Bool) : Only (InDst dst) (makedirs p eo) := by
  refine (only_makedirs p eo).mono ?_
  rintro o ⟨q, _, hq, rfl⟩
  rcases hp.up hq with h | h
  · exact Or.inr ⟨q, h, rfl⟩
  · exact Or.inl h

theorem inDst_extractDst {E : Env} {dstdir : Str} : Only (InDst (absComps E.cwd dstdir)) (extractDst E dstdir) := by
  unfold extractDst
  dsimp only
  refine .look_bind ?_
  intro s pbase hpb
  obtain ⟨rfl, _⟩ := openObj_ok hpb
  refine .bind (.get (fun s => ?_)) (fun _ => .ret)
  unfold prepareDst
  refine .ite (fun _ => ?_) (fun _ => ?_)
  · split
    · exact .ret
    · exact .ite (fun _ => .ret) (fun _ => .ret)
  · have e := (dstParent_resolve E dstdir).1
    unfold dstParent at e
    rw [e]
    exact .get (fun _ => .ite (fun _ => .ret) (fun _ => inDst_makedirs (Or.inl List.prefix_rfl) true))

theorem inDst_extractState {base dst : Path} {m : DigestMap} :
    ∀ {st : DigestMap}, (∀ p ∈ listed st, ∃ segs, LogicalPath segs p) → Only (InDst dst) (extractState base dst m st)
  | [], _ => .ret
  | (d, files) :: rest, h => by
    unfold extractState
    refine .bind .ret (fun f => .bind (.forEach (fun p hp => ?_)) (fun _ => inDst_extractState (fun p hp => ?_)))
    · obtain ⟨segs, hsg⟩ := h p (by rw [listed_cons]; exact List.mem_append_left _ hp)
      have hl := logical_resolve hsg dst
      unfold extractOne
      rw [hl.1, hl.2.1]
      refine .bind (inDst_makedirs (near_of_prefix (List.dropLast_prefix _)) _) (fun _ => only_copyfile.mono ?_)
      rintro o ⟨b, rfl⟩
      exact Or.inl (List.prefix_append _ _)
    · exact h p (by rw [listed_cons]; exact List.mem_append_right _ hp)

end Ocfl
