import Verif.Proofs.WriteDone
import Verif.Proofs.PlainCalls

/-!
# What an interrupted update leaves
-/

namespace Ocfl

open Spec FS Prog Ocfl.Inv

/-! ## Well-formed at every moment -/

theorem exec_wf {s : FS} (h : s.WF) {o : FS.Op} (ho : ∀ w ∈ o.target, SafeName w) : (FS.exec o s).1.WF := by
  have hpar : ∀ p, noParent s p = none → p ≠ [] → look s p.dropLast = some .dir := by
    intro p hp hne
    unfold noParent at hp
    split at hp
    · assumption
    · cases hp
    · cases hp
  cases o with
  | mkdir p =>
    unfold FS.exec
    dsimp only
    split
    · exact h
    · rename_i hl
      have hne : p ≠ [] := by rintro rfl; rw [look_nil] at hl; cases hl
      split
      · exact h
      · rename_i hp
        exact WF_set h hne (hpar p hp hne) ho (fun _ => rfl)
  | write p b =>
    unfold FS.exec
    dsimp only
    split
    · exact h
    · rename_i hl
      have hne : p ≠ [] := by rintro rfl; rw [look_nil] at hl; exact hl rfl
      split
      · exact h
      · rename_i hp
        exact WF_set h hne (hpar p hp hne) ho (fun hd => absurd hd hl)
  | remove p =>
    unfold FS.exec
    dsimp only
    split
    · exact h
    · exact h
    · rename_i hl
      exact WF_erase h hl

/-- The names of the target are names. -/
def SafeTarget (o : FS.Op) : Prop := ∀ w ∈ o.target, SafeName w

theorem Prog.Only.visits_wf {α : Type} {p : Prog α} {s s' : FS} (hp : Only SafeTarget p) (hw : s.WF) (hv : Visits p s s') : s'.WF := by
  induction hv with
  | here => exact hw
  | get _ ih => cases hp with | get hk => exact ih (hk _) hw
  | mid hm =>
    cases hp with
    | op ho _ =>
      cases hm with
      | before => exact hw
      | after => exact exec_wf hw ho
      | partly n he => subst he; exact exec_wf hw ho
  | next _ ih => cases hp with | op ho hk => exact ih (hk _) (exec_wf hw ho)

theorem Prog.Only.run_wf {α : Type} {p : Prog α} {s s' : FS} {r : Py α} (hp : Only SafeTarget p) (hw : s.WF)
    (hr : run p s = (s', r)) : s'.WF := by
  have := hp.visits_wf hw (visits_run p s)
  rwa [hr] at this

theorem safe_append {base ws : Path} (hb : ∀ w ∈ base, SafeName w) (hs : ∀ w ∈ ws, SafeName w) : ∀ w ∈ base ++ ws, SafeName w := by
  intro w hw
  rcases List.mem_append.mp hw with h | h
  · exact hb w h
  · exact hs w h

theorem safe_copyIntoObject {base src : Path} {head f : Str} {c : Str} (hb : ∀ w ∈ base, SafeName w) (hh : SafeName head)
    (hc : ∃ ws, ws ≠ [] ∧ (∀ w ∈ ws, SafeName w) ∧ c = pathOf (head :: ws)) :
    Only SafeTarget (copyIntoObject base src f c) := by
  obtain ⟨ws, hne, hs, rfl⟩ := hc
  have hs' : ∀ w ∈ head :: ws, SafeName w := by
    intro w hw
    rcases List.mem_cons.mp hw with rfl | hw
    · exact hh
    · exact hs w hw
  unfold copyIntoObject
  rw [resolve_dirname hs' (by simp), resolve_pathOf base hs']
  refine .get (fun s => .bind (.ite (fun _ => (only_makedirs _ _).mono ?_) (fun _ => .ret)) (fun _ => only_copyfile.mono ?_))
  · rintro o ⟨q, _, hq, rfl⟩ w hw
    exact safe_append hb (fun w hw => hs' w (List.dropLast_subset _ hw)) w (hq.subset hw)
  · rintro o ⟨b, rfl⟩
    exact safe_append hb hs'

theorem safe_writeInv {E : Env} {o : Obj} {base : Path} {inv : Option Inv} {vdir : Str} {vd : Path} (hb : ∀ w ∈ base, SafeName w)
    (hv : VDir vdir vd) : Only SafeTarget (writeInventoryAndSidecar E o base inv vdir) := by
  have hvd : ∀ w ∈ vd, SafeName w := by
    cases hv with
    | root => simp
    | version h => simpa using h
  unfold writeInventoryAndSidecar
  rw [hv.resolve, hv.resolve_in base (w := inventoryFilename) (by decide)]
  refine .get (fun s => .bind (.ite (fun _ => (only_makedir _).mono ?_) (fun _ => .ret)) (fun _ => .bind ?_ (fun _ => .look_bind ?_)))
  · rintro o ⟨q, _, hq, rfl⟩ w hw
    exact safe_append hb hvd w (hq.subset hw)
  · cases inv with
    | none => exact .ret
    | some i => exact .perform (safe_append (safe_append hb hvd) (by simp; decide))
  · intro s' d hd
    obtain ⟨b, _, hfd⟩ := digestAt_ok.mp hd
    have hsafe := sidecar_safe (fileDigest_noSlash hfd)
    have e : inventoryFilename ++ c!"." ++ o.digestAlgorithm = sidecarName o.digestAlgorithm := rfl
    rw [e, hv.resolve_in base hsafe]
    exact .perform (safe_append (safe_append hb hvd) (by simpa using hsafe))

theorem safe_removeOldSidecar {base : Path} {nv : NV} (hb : ∀ w ∈ base, SafeName w)
    (hold : ∀ old, nv.oldDigestAlgorithm = some old → '/' ∉ old) : Only SafeTarget (removeOldSidecar base nv) := by
  refine (only_removeOldSidecar hold).mono ?_
  rintro o ⟨old, ho, ht⟩
  unfold SafeTarget
  rw [ht]
  exact safe_append hb (by simpa using sidecar_safe (hold old ho))

theorem safe_putVersion {E : Env} {o : Obj} {base src : Path} {nv : NV} {head : Str} (hb : ∀ w ∈ base, SafeName w) (hh : SafeName head)
    (hq : QueueInside head nv.filesToCopy) (hold : ∀ old, nv.oldDigestAlgorithm = some old → '/' ∉ old) :
    Only SafeTarget (putVersion E o base src nv head) := by
  unfold putVersion
  refine .bind (safe_removeOldSidecar hb hold) (fun _ => .bind ?_ (fun _ => .bind ?_ (fun _ => safe_writeInv hb (.version hh))))
  · rw [resolve_name base hh]
    refine (only_makedir _).mono ?_
    rintro o ⟨q, _, hq, rfl⟩ w hw
    exact safe_append hb (by simpa using hh) w (hq.subset hw)
  · exact .forEach (fun e he => safe_copyIntoObject hb hh (hq e he))

theorem safe_writeNewVersion {E : Env} {o : Obj} {base src : Path} {nv : NV} {head : Str} (hb : ∀ w ∈ base, SafeName w)
    (hhead : nv.inv.head = some head) (hh : SafeName head)
    (hq : QueueInside head nv.filesToCopy) (hold : ∀ old, nv.oldDigestAlgorithm = some old → '/' ∉ old) :
    Only SafeTarget (writeNewVersion E o base src nv) := by
  rw [writeNewVersion_eq hhead]
  exact .bind (safe_putVersion hb hh hq hold) (fun _ => .bind (safe_writeInv hb .root) (fun _ => .ret))

/-! ## The root inventory -/

theorem exec_write {p : Path} {b : Bytes} {s : FS} : (FS.exec (.write p b) s).1 = s ∧ (∃ e, (FS.exec (.write p b) s).2 = .error e) ∨
    (FS.exec (.write p b) s).1 = Dict.set s p (.file b) ∧ (FS.exec (.write p b) s).2 = .ok () ∧ p ≠ [] := by
  unfold FS.exec
  dsimp only
  split
  · exact Or.inl ⟨rfl, _, rfl⟩
  · rename_i hl
    have hne : p ≠ [] := by rintro rfl; rw [look_nil] at hl; exact hl rfl
    split
    · exact Or.inl ⟨rfl, _, rfl⟩
    · exact Or.inr ⟨rfl, rfl, hne⟩

/-- Moments of writing a file. -/
theorem visits_write {p : Path} {b : Bytes} {s s' : FS} (h : Visits (FS.writeFile p b) s s') :
    s' = s ∨ (∃ n, s' = Dict.set s p (.file (b.take n))) ∧ p ≠ [] := by
  unfold FS.writeFile Prog.perform at h
  cases h with
  | here => exact Or.inl rfl
  | mid hm =>
    cases hm with
    | before => exact Or.inl rfl
    | after =>
      rcases exec_write (p := p) (b := b) (s := s) with h | h
      · exact Or.inl h.1
      · exact Or.inr ⟨⟨b.length, by rw [h.1, List.take_length]⟩, h.2.2⟩
    | @partly p' b' n he =>
      cases he
      rcases exec_write (p := p) (b := b.take n) (s := s) with h | h
      · exact Or.inl h.1
      · exact Or.inr ⟨⟨n, h.1⟩, h.2.2⟩
  | next hv =>
    rw [visits_ret hv]
    rcases exec_write (p := p) (b := b) (s := s) with h | h
    · exact Or.inl h.1
    · exact Or.inr ⟨⟨b.length, by rw [h.1, List.take_length]⟩, h.2.2⟩

theorem run_write_inv {p : Path} {b : Bytes} {s s' : FS} (h : run (FS.writeFile p b) s = (s', .ok ())) :
    s' = Dict.set s p (.file b) ∧ p ≠ [] := by
  unfold FS.writeFile Prog.perform at h
  have h' : ((FS.exec (.write p b) s).1, (FS.exec (.write p b) s).2) = (s', .ok ()) := h
  obtain ⟨h1, h2⟩ := Prod.mk.inj h'
  rcases exec_write (p := p) (b := b) (s := s) with h | h
  · obtain ⟨e, he⟩ := h.2
    rw [he] at h2
    cases h2
  · exact ⟨by rw [← h1, h.1], h.2.2⟩

/-- Moments of writing the root inventory: it is the old one, and so is everything else, or it holds a
first part of the new text. -/
theorem visits_writeRoot {E : Env} {o : Obj} {base : Path} {inv : Inv} {s s' : FS} (hb : look s base = some .dir)
    (hv : Visits (writeInventoryAndSidecar E o base (some inv) []) s s') :
    s' = s ∨ ∃ n, look s' (base ++ [inventoryFilename]) = some (.file ((utf8 (inventoryText E inv)).take n)) := by
  unfold writeInventoryAndSidecar at hv
  rw [resolve_nil, osPathJoin_nil, osPathJoin_nil, resolve_name base (w := inventoryFilename) (by decide)] at hv
  cases hv with
  | here => exact Or.inl rfl
  | get hv =>
    dsimp only at hv
    rw [if_neg (by unfold exists_; rw [hb]; simp)] at hv
    rcases visits_bind hv with hv | ⟨s1, _, hr, hv⟩
    · exact Or.inl (visits_ret hv)
    cases hr
    rcases visits_bind hv with hv | ⟨s1, _, hr, hv⟩
    · rcases visits_write hv with h | ⟨⟨n, rfl⟩, hne⟩
      · exact Or.inl h
      · exact Or.inr ⟨n, by rw [look_set hne, if_pos rfl]⟩
    · obtain ⟨rfl, hne⟩ := run_write_inv hr
      refine Or.inr ⟨(utf8 (inventoryText E inv)).length, ?_⟩
      rw [List.take_length]
      have hon : Only (fun op => op.target = base ++ [sidecarName o.digestAlgorithm])
          (Prog.bind (Prog.look (fun s => digestAt E s (base ++ [inventoryFilename]) o.digestAlgorithm)) (fun digest =>
            FS.writeFile (FS.resolve base (inventoryFilename ++ c!"." ++ o.digestAlgorithm)) (utf8 (digest ++ c!" " ++ inventoryFilename ++ c!"\n")))) := by
        refine .look_bind ?_
        intro s' d hd
        obtain ⟨b, _, hfd⟩ := digestAt_ok.mp hd
        have hsafe := sidecar_safe (fileDigest_noSlash hfd)
        have e : inventoryFilename ++ c!"." ++ o.digestAlgorithm = sidecarName o.digestAlgorithm := rfl
        rw [e, resolve_name base hsafe]
        exact .perform rfl
      rw [hon.visits_frame (q := base ++ [inventoryFilename]) (by
        intro op ht he
        rw [ht] at he
        exact inventory_ne_sidecar he.symm) hv, look_set hne, if_pos rfl]

/-- The steps before the root inventory is written do not touch it, nor the sidecar unless the algorithm changes. -/
theorem putVersion_root {E : Env} {o : Obj} {base src : Path} {nv : NV} {head : Str} (hh : SafeName head) (hv : head.head? = some 'v')
    (hq : QueueInside head nv.filesToCopy) (hold : ∀ old, nv.oldDigestAlgorithm = some old → '/' ∉ old) {s s' : FS}
    (hvis : Visits (putVersion E o base src nv head) s s') {w : Str} (hw : w ≠ head)
    (hrem : nv.inv.digestAlgorithm = nv.oldDigestAlgorithm ∨ ∀ old, nv.oldDigestAlgorithm = some old → w ≠ sidecarName old) :
    look s' (base ++ [w]) = look s (base ++ [w]) := by
  have hne : ¬ base ++ [head] <+: base ++ [w] := not_under (by simpa using hw)
  have hpre : ∀ q, q <+: base → q ≠ base ++ [w] := by
    rintro q hq rfl
    have := hq.length_le
    simp only [List.length_append, List.length_cons, List.length_nil] at this
    omega
  have hstay : ∀ op, Stays base (base ++ [head]) op → op.target ≠ base ++ [w] := by
    rintro op (h | ⟨q, h, rfl⟩) he
    · rw [he] at h; exact hne h
    · exact hpre q h he
  unfold putVersion at hvis
  have h1 : ∀ {t}, Visits (removeOldSidecar base nv) s t → look t (base ++ [w]) = look s (base ++ [w]) := by
    intro t ht
    rcases hrem with h | h
    · unfold removeOldSidecar at ht
      split at ht
      · rw [visits_ret ht]
      · rename_i old ho
        rw [if_neg (by rw [h, ho]; simp)] at ht
        rw [visits_ret ht]
    · refine (only_removeOldSidecar hold).visits_frame ?_ ht
      rintro op ⟨old, ho, he⟩ he'
      rw [he] at he'
      exact h old ho (by simpa using he'.symm)
  rcases visits_bind hvis with hvis | ⟨s1, _, hr1, hvis⟩
  · exact h1 hvis
  have e1 : look s1 (base ++ [w]) = look s (base ++ [w]) := by
    have := h1 (visits_run _ s)
    rwa [hr1] at this
  rw [← e1]
  refine (Only.bind (P := Stays base (base ++ [head])) ?_ (fun _ => .bind (only_copyAll hh hq) (fun _ => only_writeInvVersion hh))).visits_frame hstay hvis
  rw [resolve_name base hh]
  refine (only_makedir _).mono ?_
  rintro op ⟨q, _, hq, rfl⟩
  rcases prefix_split (ws := []) hq with h | h
  · exact Or.inr ⟨q, h, rfl⟩
  · exact Or.inl h

/-- The new version is complete: its inventory and the sidecar are written, and every file is copied. -/
structure VersionComplete (E : Env) (alg : Str) (base : Path) (head : Str) (inv : Inv) (s : FS) : Prop where
  inventory : look s (base ++ [head, inventoryFilename]) = some (.file (utf8 (inventoryText E inv)))
  sidecar : ∃ d, fileDigest E.raw alg (utf8 (inventoryText E inv)) = some d ∧
    look s (base ++ [head, sidecarName alg]) = some (.file (sidecarLine d))

/-- When all but the root inventory is written, the new version is complete. -/
theorem putVersion_complete {E : Env} {o : Obj} {base src : Path} {nv : NV} {head : Str} {s s4 : FS} (hw : s.WF)
    (hb : look s base = some .dir) (hh : SafeName head)
    (hq : QueueInside head nv.filesToCopy) (hold : ∀ old, nv.oldDigestAlgorithm = some old → '/' ∉ old)
    (hr : run (putVersion E o base src nv head) s = (s4, .ok ())) :
    s4.WF ∧ look s4 base = some .dir ∧ VersionComplete E o.digestAlgorithm base head nv.inv s4 := by
  have hbs := look_names hw hb
  have hw4 : s4.WF := (safe_putVersion hbs hh hq hold).run_wf hw hr
  have hb4 : look s4 base = some .dir := by
    obtain ⟨s1, _, h1, h2⟩ := run_bind_inv hr
    have k1 : look s1 base = some .dir := by
      have := (only_removeOldSidecar (base := base) hold).run_frame (s := s) (q := base) (by
        rintro op ⟨old, _, ht⟩ he
        rw [ht] at he
        exact concat_ne_self he)
      rw [h1] at this
      rw [this, hb]
    have := (Only.bind (P := Stays base (base ++ [head])) (p := FS.makedir (FS.resolve base head)) (by
      rw [resolve_name base hh]
      refine (only_makedir _).mono ?_
      rintro op ⟨q, _, hq, rfl⟩
      rcases prefix_split (ws := []) hq with h | h
      · exact Or.inr ⟨q, h, rfl⟩
      · exact Or.inl h) (fun _ => .bind (only_copyAll (src := src) hh hq) (fun _ => only_writeInvVersion (E := E) (o := o) (inv := some nv.inv) hh))).run_spares
        (s := s1) (q := base) (fun op hop => hop.spares (by
          intro hp
          have := hp.length_le
          simp only [List.length_append, List.length_cons, List.length_nil] at this
          omega)) (by rw [k1]; simp)
    rw [h2] at this
    rw [this, k1]
  have hvc : VersionComplete E o.digestAlgorithm base head nv.inv s4 := by
    obtain ⟨s1, _, h1, h2⟩ := run_bind_inv hr
    obtain ⟨s2, _, h3, h4⟩ := run_bind_inv h2
    obtain ⟨s3, _, h5, h6⟩ := run_bind_inv h4
    have k1 := (safe_removeOldSidecar hbs hold).run_wf hw h1
    have k2 := Only.run_wf (p := FS.makedir (FS.resolve base head)) (by
      rw [resolve_name base hh]
      refine (only_makedir _).mono ?_
      rintro o ⟨q, _, hq, rfl⟩ w hw
      exact safe_append hbs (by simpa using hh) w (hq.subset hw)) k1 h3
    have hw3 := Only.run_wf (p := copyAll base src nv.filesToCopy) (.forEach (fun e he => safe_copyIntoObject hbs hh (hq e he))) k2 h5
    have l1 : look s1 base = some .dir := by
      have := (only_removeOldSidecar (base := base) hold).run_frame (s := s) (q := base) (by
        rintro op ⟨old, _, ht⟩ he
        rw [ht] at he
        exact concat_ne_self he)
      rw [h1] at this
      rw [this, hb]
    have hsp : ∀ op, Stays base (base ++ [head]) op → Spares base op := fun op hop => hop.spares (by
          intro hp
          have := hp.length_le
          simp only [List.length_append, List.length_cons, List.length_nil] at this
          omega)
    have l3 : look s3 base = some .dir := by
      have := (Only.bind (P := Stays base (base ++ [head])) (p := FS.makedir (FS.resolve base head)) (by
        rw [resolve_name base hh]
        refine (only_makedir _).mono ?_
        rintro op ⟨q, _, hq, rfl⟩
        rcases prefix_split (ws := []) hq with h | h
        · exact Or.inr ⟨q, h, rfl⟩
        · exact Or.inl h) (fun _ => only_copyAll (src := src) hh hq)).run_spares (s := s1) (q := base) hsp (by rw [l1]; simp)
      rw [run_bind_ok h3, h5] at this
      rw [this, l1]
    obtain ⟨hW, _⟩ := run_writeInv_inv (.version hh) hw3 l3 h6
    constructor
    · have := hW.inventory
      rwa [List.append_assoc] at this
    · obtain ⟨d, hd1, hd2⟩ := hW.digest
      exact ⟨d, hd1, by rwa [List.append_assoc] at hd2⟩
  exact ⟨hw4, hb4, hvc⟩

/-- Every moment of writing a version: the root inventory is the old one, with its sidecar unless the
algorithm changes; or the new version is complete and the root inventory holds a first part of the text. -/
theorem writeNewVersion_moment {E : Env} {o : Obj} {base src : Path} {nv : NV} {head : Str} {s s' : FS} (hw : s.WF)
    (hb : look s base = some .dir) (hhead : nv.inv.head = some head) (hh : SafeName head) (hv : head.head? = some 'v')
    (hq : QueueInside head nv.filesToCopy) (hold : ∀ old, nv.oldDigestAlgorithm = some old → '/' ∉ old)
    (hvis : Visits (writeNewVersion E o base src nv) s s') :
    (look s' (base ++ [inventoryFilename]) = look s (base ++ [inventoryFilename]) ∧
      (nv.inv.digestAlgorithm = nv.oldDigestAlgorithm → ∀ a, look s' (base ++ [sidecarName a]) = look s (base ++ [sidecarName a]))) ∨
    (∃ s4, run (putVersion E o base src nv head) s = (s4, .ok ()) ∧ s4.WF ∧ look s4 base = some .dir ∧ (∀ q, base ++ [head] <+: q → look s' q = look s4 q) ∧
      (∃ n, look s' (base ++ [inventoryFilename]) = some (.file ((utf8 (inventoryText E nv.inv)).take n))) ∧
      VersionComplete E o.digestAlgorithm base head nv.inv s') := by
  have hbs := look_names hw hb
  have hneI : inventoryFilename ≠ head := by rintro rfl; revert hv; decide
  have hneS : ∀ a, sidecarName a ≠ head := by
    rintro a rfl
    cases hv
  rw [writeNewVersion_eq hhead] at hvis
  have hput : ∀ {t}, Visits (putVersion E o base src nv head) s t →
      look t (base ++ [inventoryFilename]) = look s (base ++ [inventoryFilename]) ∧
      (nv.inv.digestAlgorithm = nv.oldDigestAlgorithm → ∀ a, look t (base ++ [sidecarName a]) = look s (base ++ [sidecarName a])) := by
    intro t ht
    refine ⟨putVersion_root hh hv hq hold ht hneI (Or.inr ?_), fun he a => putVersion_root hh hv hq hold ht (hneS a) (Or.inl he)⟩
    intro old _ he
    exact inventory_ne_sidecar (dir := base) (by rw [he])
  rcases visits_bind hvis with hvis | ⟨s4, _, hr, hvis⟩
  · exact Or.inl (hput hvis)
  obtain ⟨hw4, hb4, hvc⟩ := putVersion_complete hw hb hh hq hold hr
  have hput4 := hput (visits_run _ s)
  rw [hr] at hput4
  have hroot : ∀ q, base ++ [head] <+: q → ∀ op, StaysRoot base o.digestAlgorithm op → op.target ≠ q := by
    rintro q hq op (h | h | ⟨q', h, rfl⟩) rfl
    · rw [h] at hq
      exact not_under (inventory_ne_head hv) hq
    · rw [h] at hq
      exact not_under (sidecar_ne_head hv) hq
    · have h1 := h.length_le
      have h2 := hq.length_le
      simp only [List.length_append, List.length_cons, List.length_nil, FS.Op.target] at h1 h2
      omega
  have hin : ∀ q, base ++ [head] <+: q → look s' q = look s4 q := fun q hqp =>
    (Only.bind only_writeInvRoot (fun _ => .ret)).visits_frame (hroot q hqp) hvis
  have hvc' : VersionComplete E o.digestAlgorithm base head nv.inv s' := by
    constructor
    · rw [hin _ ⟨[inventoryFilename], by simp⟩]; exact hvc.inventory
    · obtain ⟨d, hd1, hd2⟩ := hvc.sidecar
      exact ⟨d, hd1, by rw [hin _ ⟨[sidecarName o.digestAlgorithm], by simp⟩]; exact hd2⟩
  have hfin : ∀ {t}, Visits (writeInventoryAndSidecar E o base (some nv.inv) []) s4 t → s' = t →
      (look s' (base ++ [inventoryFilename]) = look s (base ++ [inventoryFilename]) ∧
        (nv.inv.digestAlgorithm = nv.oldDigestAlgorithm → ∀ a, look s' (base ++ [sidecarName a]) = look s (base ++ [sidecarName a]))) ∨
      (∃ n, look s' (base ++ [inventoryFilename]) = some (.file ((utf8 (inventoryText E nv.inv)).take n))) := by
    rintro t ht rfl
    rcases visits_writeRoot hb4 ht with h | h
    · rw [h]; exact Or.inl hput4
    · exact Or.inr h
  have : (look s' (base ++ [inventoryFilename]) = look s (base ++ [inventoryFilename]) ∧
        (nv.inv.digestAlgorithm = nv.oldDigestAlgorithm → ∀ a, look s' (base ++ [sidecarName a]) = look s (base ++ [sidecarName a]))) ∨
      (∃ n, look s' (base ++ [inventoryFilename]) = some (.file ((utf8 (inventoryText E nv.inv)).take n))) := by
    rcases visits_bind hvis with hvis | ⟨s5, _, hr5, hvis⟩
    · exact hfin hvis rfl
    · have hv5 := visits_run (writeInventoryAndSidecar E o base (some nv.inv) []) s4
      rw [hr5] at hv5
      exact hfin hv5 (visits_ret hvis)
  rcases this with h | h
  · exact Or.inl h
  · exact Or.inr ⟨s4, hr, hw4, hb4, hin, h, hvc'⟩

end Ocfl
