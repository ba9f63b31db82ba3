import Verif.Proofs.AddSource
import Verif.Spec.Update

/-!
# What `write_new_version` may touch
-/

namespace Ocfl

open Spec FS Prog Ocfl.Inv

namespace Spec

/-- Every queued file has its place in the directory of the version `head`. -/
def QueueInside (head : Str) (files : Dict Str Str) : Prop :=
  ∀ e ∈ files, ∃ ws, ws ≠ [] ∧ (∀ w ∈ ws, SafeName w) ∧ e.2 = pathOf (head :: ws)

end Spec

theorem fileDigest_alg {raw : Str → Bytes → Str} {alg : Str} {b : Bytes} {d : Str} (h : fileDigest raw alg b = some d) :
    alg ∈ [c!"sha512", c!"sha256", c!"sha1", c!"md5", c!"blake2b-512", c!"blake2b-160", c!"blake2b-256", c!"blake2b-384",
      c!"sha512-spec-ex", c!"sha256-spec-ex"] := by
  unfold fileDigest at h
  split at h
  · rename_i h1
    simp only [List.mem_cons, List.not_mem_nil, or_false]
    rcases h1 with h1 | h1 | h1 | h1 | h1 | h1 | h1 | h1 <;> simp [h1]
  · split at h
    · rename_i h1; subst h1; decide
    · split at h
      · rename_i h1; subst h1; decide
      · cases h

theorem sidecar_safe {alg : Str} (h : '/' ∉ alg) : SafeName (sidecarName alg) := by
  have hne : ∀ t : Str, t.length ≤ 2 → sidecarName alg ≠ t := by
    intro t ht e
    have := congrArg List.length e
    simp [sidecarName] at this
    omega
  refine ⟨hne _ (by decide), hne _ (by decide), hne _ (by decide), ?_⟩
  intro hm
  rcases List.mem_append.mp hm with hm | hm
  · revert hm; decide
  · exact h hm

theorem fileDigest_noSlash {raw : Str → Bytes → Str} {alg : Str} {b : Bytes} {d : Str} (h : fileDigest raw alg b = some d) :
    '/' ∉ alg :=
  (show ∀ a ∈ [c!"sha512", c!"sha256", c!"sha1", c!"md5", c!"blake2b-512", c!"blake2b-160", c!"blake2b-256", c!"blake2b-384",
      c!"sha512-spec-ex", c!"sha256-spec-ex"], '/' ∉ a by decide) alg (fileDigest_alg h)

/-! ## The steps -/

theorem Prog.Only.look_bind {α β : Type} {P : FS.Op → Prop} {f : FS → Py α} {g : α → Prog β}
    (h : ∀ s a, f s = .ok a → Only P (g a)) : Only P (Prog.bind (Prog.look f) g) := by
  refine .get (fun s => ?_)
  show Only P (Prog.bind (Prog.ret (f s)) g)
  cases hf : f s with
  | error e => exact .ret
  | ok a => exact h s a hf

/-- An operation inside `D`, or the creation of a directory above `base`. -/
def Stays (base D : Path) (o : FS.Op) : Prop := D <+: o.target ∨ ∃ q, q <+: base ∧ o = .mkdir q

theorem prefix_split {base : Path} {head : Str} {ws q : Path} (h : q <+: base ++ head :: ws) :
    q <+: base ∨ base ++ [head] <+: q := by
  rcases le_or_gt q.length base.length with hl | hl
  · exact Or.inl (List.prefix_of_prefix_length_le h (List.prefix_append _ _) hl)
  · right
    have hp : base ++ [head] <+: base ++ head :: ws := ⟨ws, by simp⟩
    exact List.prefix_of_prefix_length_le hp h (by simp; omega)

theorem resolve_dirname {base : Path} {ws : List Str} (hs : ∀ w ∈ ws, SafeName w) (hne : ws ≠ []) :
    FS.resolve base (osDirname (pathOf ws)) = base ++ ws.dropLast := by
  rw [← joinWith_eq_pathOf]
  rw [osDirname_join (isComp_list hs) hne, resolve_join base (fun x hx => hs x (List.dropLast_subset _ hx))]

theorem resolve_pathOf (base : Path) {ws : List Str} (hs : ∀ w ∈ ws, SafeName w) : FS.resolve base (pathOf ws) = base ++ ws := by
  rw [← joinWith_eq_pathOf, resolve_join base hs]

theorem only_copyIntoObject {base src : Path} {head f : Str} {c : Str} (hh : SafeName head)
    (hc : ∃ ws, ws ≠ [] ∧ (∀ w ∈ ws, SafeName w) ∧ c = pathOf (head :: ws)) :
    Only (Stays base (base ++ [head])) (copyIntoObject base src f c) := by
  obtain ⟨ws, hne, hs, rfl⟩ := hc
  have hs' : ∀ w ∈ head :: ws, SafeName w := by
    intro w hw
    rcases List.mem_cons.mp hw with rfl | hw
    · exact hh
    · exact hs w hw
  unfold copyIntoObject
  rw [resolve_dirname hs' (by simp), resolve_pathOf base hs']
  have hd : (head :: ws).dropLast = head :: ws.dropLast := by cases ws with
    | nil => exact absurd rfl hne
    | cons a l => rfl
  rw [hd]
  refine .get (fun s => .bind (.ite (fun _ => (only_makedirs _ _).mono ?_) (fun _ => .ret)) (fun _ => only_copyfile.mono ?_))
  · rintro o ⟨q, _, hq, rfl⟩
    rcases prefix_split hq with h | h
    · exact Or.inr ⟨q, h, rfl⟩
    · exact Or.inl h
  · rintro o ⟨b, rfl⟩
    exact Or.inl ⟨ws, by simp [FS.Op.target]⟩

theorem only_copyAll {base src : Path} {head : Str} {files : Dict Str Str} (hh : SafeName head) (h : QueueInside head files) :
    Only (Stays base (base ++ [head])) (copyAll base src files) :=
  .forEach (fun e he => only_copyIntoObject hh (h e he))

theorem only_writeInvVersion {E : Env} {o : Obj} {base : Path} {inv : Option Inv} {head : Str} (hh : SafeName head) :
    Only (Stays base (base ++ [head])) (writeInventoryAndSidecar E o base inv head) := by
  have hp : ∀ w, SafeName w → FS.resolve base (osPathJoin head w) = base ++ [head] ++ [w] := by
    intro w hw
    have : osPathJoin head w = joinWith '/' [head, w] := by
      have := osPathJoin_joinWith (ws := [head]) (b := w) (by simpa using SafeName.isComp hh) hw.2.2.2
      simpa [joinWith] using this
    rw [this, resolve_join base (by simp [hh, hw])]
    simp
  unfold writeInventoryAndSidecar
  refine .get (fun s => .bind (.ite (fun _ => (only_makedir _).mono ?_) (fun _ => .ret)) (fun _ => .bind ?_ (fun _ => .look_bind ?_)))
  · rw [resolve_name base hh]
    rintro o ⟨q, _, hq, rfl⟩
    rcases prefix_split (ws := []) hq with h | h
    · exact Or.inr ⟨q, h, rfl⟩
    · exact Or.inl h
  · rw [hp _ (by decide)]
    cases inv with
    | none => exact .ret
    | some i => exact .perform (Or.inl ⟨[inventoryFilename], by simp [FS.Op.target]⟩)
  · intro s' d hd
    obtain ⟨b, _, hfd⟩ := digestAt_ok.mp hd
    have hsafe := sidecar_safe (fileDigest_noSlash hfd)
    have e : inventoryFilename ++ c!"." ++ o.digestAlgorithm = sidecarName o.digestAlgorithm := rfl
    rw [e, hp _ hsafe]
    exact .perform (Or.inl ⟨[sidecarName o.digestAlgorithm], by simp [FS.Op.target]⟩)

/-- An operation on the root inventory or its sidecar, or the creation of a directory above. -/
def StaysRoot (base : Path) (alg : Str) (o : FS.Op) : Prop :=
  o.target = base ++ [inventoryFilename] ∨ o.target = base ++ [sidecarName alg] ∨ ∃ q, q <+: base ∧ o = .mkdir q

theorem only_writeInvRoot {E : Env} {o : Obj} {base : Path} {inv : Option Inv} :
    Only (StaysRoot base o.digestAlgorithm) (writeInventoryAndSidecar E o base inv []) := by
  unfold writeInventoryAndSidecar
  rw [resolve_nil, osPathJoin_nil, osPathJoin_nil, resolve_name base (w := inventoryFilename) (by decide)]
  refine .get (fun s => .bind (.ite (fun _ => (only_makedir _).mono ?_) (fun _ => .ret)) (fun _ => .bind ?_ (fun _ => .look_bind ?_)))
  · rintro o ⟨q, _, hq, rfl⟩
    exact Or.inr (Or.inr ⟨q, hq, rfl⟩)
  · cases inv with
    | none => exact .ret
    | some i => exact .perform (Or.inl rfl)
  · intro s' d hd
    obtain ⟨b, _, hfd⟩ := digestAt_ok.mp hd
    have hsafe := sidecar_safe (fileDigest_noSlash hfd)
    have e : inventoryFilename ++ c!"." ++ o.digestAlgorithm = sidecarName o.digestAlgorithm := rfl
    rw [e, resolve_name base hsafe]
    exact .perform (Or.inr (Or.inl rfl))

theorem only_removeOldSidecar {base : Path} {nv : NV} (hold : ∀ old, nv.oldDigestAlgorithm = some old → '/' ∉ old) :
    Only (fun o => ∃ old, nv.oldDigestAlgorithm = some old ∧ o.target = base ++ [sidecarName old]) (removeOldSidecar base nv) := by
  unfold removeOldSidecar
  split
  · exact .ret
  · rename_i old ho
    have e : inventoryFilename ++ c!"." ++ old = sidecarName old := rfl
    rw [e, resolve_name base (sidecar_safe (hold old ho))]
    refine .ite (fun _ => .get (fun s => .ite (fun _ => .ret) (fun _ => .perform ⟨old, ho, rfl⟩))) (fun _ => .ret)

/-! ## The whole -/

theorem Stays.spares {base D : Path} {o : FS.Op} {q : Path} (h : Stays base D o) (hq : ¬ D <+: q) : Spares q o := by
  intro ht
  rcases h with h | ⟨q', _, rfl⟩
  · rw [ht] at h; exact absurd h hq
  · exact ⟨q', rfl⟩

theorem StaysRoot.spares {base : Path} {alg : Str} {o : FS.Op} {q : Path} (h : StaysRoot base alg o)
    (h1 : q ≠ base ++ [inventoryFilename]) (h2 : q ≠ base ++ [sidecarName alg]) : Spares q o := by
  intro ht
  rcases h with h | h | ⟨q', _, rfl⟩
  · rw [ht] at h; exact absurd h h1
  · rw [ht] at h; exact absurd h h2
  · exact ⟨q', rfl⟩

theorem visits_makedir_exists {p : Path} {s s' : FS} (hl : look s p ≠ none) (hv : Visits (FS.makedir p) s s') : s' = s := by
  unfold FS.makedir at hv
  cases hv with
  | here => rfl
  | get hv =>
    dsimp only at hv
    rw [if_pos (by unfold exists_; cases hx : look s p with | none => exact absurd hx hl | some n => rfl)] at hv
    exact visits_ret hv

/-- The part of `write_new_version` after the removal of the old sidecar. -/
theorem only_writeRest {E : Env} {o : Obj} {base src : Path} {nv : NV} {head : Str} (hh : SafeName head)
    (hq : QueueInside head nv.filesToCopy) :
    Only (fun op => Stays base (base ++ [head]) op ∨ StaysRoot base o.digestAlgorithm op)
      (Prog.bind (copyAll base src nv.filesToCopy) (fun _ =>
        Prog.bind (writeInventoryAndSidecar E o base (some nv.inv) head) (fun _ =>
        Prog.bind (writeInventoryAndSidecar E o base (some nv.inv) []) (fun _ =>
        .ret (.ok nv.inv))))) :=
  .bind ((only_copyAll hh hq).mono (fun _ => Or.inl)) (fun _ => .bind (only_writeInvVersion hh |>.mono (fun _ => Or.inl)) (fun _ =>
    .bind (only_writeInvRoot.mono (fun _ => Or.inr)) (fun _ => .ret)))

/-- At every moment: what was there is unchanged, but for the root inventory and its sidecars. -/
theorem writeNewVersion_keeps {E : Env} {o : Obj} {base src : Path} {nv : NV} {head : Str} {s s' : FS} (hw : s.WF)
    (hhead : nv.inv.head = some head) (hh : SafeName head) (hv : head.head? = some 'v')
    (hq : QueueInside head nv.filesToCopy) (hold : ∀ old, nv.oldDigestAlgorithm = some old → '/' ∉ old)
    (hvis : Visits (writeNewVersion E o base src nv) s s') {q : Path} (h1 : q ≠ base ++ [inventoryFilename])
    (h2 : q ≠ base ++ [sidecarName o.digestAlgorithm])
    (h3 : ∀ old, nv.oldDigestAlgorithm = some old → q ≠ base ++ [sidecarName old]) (hl : look s q ≠ none) :
    look s' q = look s q := by
  unfold writeNewVersion at hvis
  rw [hhead] at hvis
  dsimp only at hvis
  have hrem := only_removeOldSidecar (base := base) hold
  rcases visits_bind hvis with hvis | ⟨s1, _, hr1, hvis⟩
  · exact hrem.visits_frame (by rintro op ⟨old, ho, ht⟩ rfl; exact h3 old ho ht) hvis
  have hfr : ∀ p, (∀ old, nv.oldDigestAlgorithm = some old → p ≠ base ++ [sidecarName old]) → look s1 p = look s p := by
    intro p hp
    have := hrem.run_frame (s := s) (q := p) (by rintro op ⟨old, ho, ht⟩ rfl; exact hp old ho ht)
    rwa [hr1] at this
  rw [← hfr q h3] at hl ⊢
  rw [resolve_name base hh] at hvis
  by_cases hD : base ++ [head] <+: q
  · have hDl : look s1 (base ++ [head]) ≠ none := by
      rw [hfr]
      · by_cases he : base ++ [head] = q
        · rw [he, ← hfr q h3]; exact hl
        · rw [hfr q h3] at hl
          cases hx : look s q with
          | none => exact absurd hx hl
          | some n => rw [look_prefix hw hD he hx]; simp
      · intro old _ he
        rw [List.append_cancel_left_eq] at he
        simp only [List.cons.injEq, and_true] at he
        rw [he] at hv
        cases hv
    rcases visits_bind hvis with hvis | ⟨s2, _, hr2, hvis⟩
    · rw [visits_makedir_exists hDl hvis]
    · rw [run_makedir_exists hDl] at hr2
      cases hr2
  · refine (Only.bind (P := fun op => Stays base (base ++ [head]) op ∨ StaysRoot base o.digestAlgorithm op)
      ((only_makedir _).mono ?_) (fun _ => only_writeRest hh hq)).visits_spares ?_ hl hvis
    · rintro op ⟨q', _, hq', rfl⟩
      rcases prefix_split (ws := []) hq' with h | h
      · exact Or.inl (Or.inr ⟨q', h, rfl⟩)
      · exact Or.inl (Or.inl h)
    · rintro op (h | h)
      · exact h.spares hD
      · exact h.spares h1 h2

/-- At every moment: nothing has appeared but in the new version directory, and the root inventory
with its sidecar. -/
theorem writeNewVersion_adds {E : Env} {o : Obj} {base src : Path} {nv : NV} {head : Str} {s s' : FS} (hw : s.WF)
    (hbase : look s base = some .dir)
    (hhead : nv.inv.head = some head) (hh : SafeName head) (hv : head.head? = some 'v')
    (hq : QueueInside head nv.filesToCopy) (hold : ∀ old, nv.oldDigestAlgorithm = some old → '/' ∉ old)
    (hvis : Visits (writeNewVersion E o base src nv) s s') {q : Path} (h1 : q ≠ base ++ [inventoryFilename])
    (h2 : q ≠ base ++ [sidecarName o.digestAlgorithm]) (hD : ¬ base ++ [head] <+: q) (hl : look s q = none) :
    look s' q = none := by
  have hqb : ¬ q <+: base := by
    intro hp
    by_cases he : q = base
    · rw [he, hbase] at hl; cases hl
    · rw [look_prefix hw hp he hbase] at hl; cases hl
  unfold writeNewVersion at hvis
  rw [hhead] at hvis
  dsimp only at hvis
  rw [resolve_name base hh] at hvis
  -- removing makes nothing appear
  have hrem : ∀ {s'}, Visits (removeOldSidecar base nv) s s' → look s' q = none := by
    intro s' hv'
    by_cases h3 : ∀ old, nv.oldDigestAlgorithm = some old → q ≠ base ++ [sidecarName old]
    · rw [(only_removeOldSidecar (base := base) hold).visits_frame (by rintro op ⟨old, ho, ht⟩ rfl; exact h3 old ho ht) hv', hl]
    · unfold removeOldSidecar at hv'
      cases hold' : nv.oldDigestAlgorithm with
      | none => rw [hold'] at hv'; rw [visits_ret hv', hl]
      | some old =>
        rw [hold'] at hv' h3
        dsimp only at hv'
        have hqe : q = base ++ [sidecarName old] := by
          by_contra hne
          exact h3 (by rintro _ ⟨⟩; exact hne)
        have e : inventoryFilename ++ c!"." ++ old = sidecarName old := rfl
        rw [e, resolve_name base (sidecar_safe (hold old hold'))] at hv'
        split at hv'
        · unfold FS.rm at hv'
          have hq' : look s (base ++ [sidecarName old]) = none := by rw [← hqe]; exact hl
          cases hv' with
          | here => exact hl
          | get hv' =>
            dsimp only at hv'
            rw [if_neg (by simp [isdir, hq'])] at hv'
            have hex : (exec (.remove (base ++ [sidecarName old])) s).1 = s := by
              unfold exec; dsimp only; rw [hq']
            cases hv' with
            | here => exact hl
            | mid hm =>
              cases hm with
              | before => exact hl
              | after => rw [hex]; exact hl
              | partly n ho => cases ho
            | next hv' => rw [hex] at hv'; rw [visits_ret hv']; exact hl
        · rw [visits_ret hv', hl]
  rcases visits_bind hvis with hvis | ⟨s1, _, hr1, hvis⟩
  · exact hrem hvis
  have hl1 : look s1 q = none := by
    have := hrem (visits_run _ s)
    rwa [hr1] at this
  rw [← hl1]
  refine (Only.bind (P := fun op => Stays base (base ++ [head]) op ∨ StaysRoot base o.digestAlgorithm op)
      ((only_makedir _).mono ?_) (fun _ => only_writeRest hh hq)).visits_frame ?_ hvis
  · rintro op ⟨q', _, hq', rfl⟩
    rcases prefix_split (ws := []) hq' with h | h
    · exact Or.inl (Or.inr ⟨q', h, rfl⟩)
    · exact Or.inl (Or.inl h)
  · rintro op ((h | ⟨q', h, rfl⟩) | h | h | ⟨q', h, rfl⟩) rfl
    · exact hD h
    · exact hqb h
    · exact h1 h
    · exact h2 h
    · exact hqb h

end Ocfl
