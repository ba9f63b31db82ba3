import Verif.Proofs.Recover
import Verif.Proofs.Parse

/-!
# Extraction reads the root inventory and the content files only
-/

namespace Ocfl

open Spec FS Prog Ocfl.Inv

theorem read_congr {s t : FS} {p : Path} (h : look t p = look s p) {b : Bytes} (hr : FS.read s p = .ok b) : FS.read t p = .ok b := by
  unfold FS.read at hr ⊢
  rw [h]
  split at hr
  · cases hr
  · cases hr
  · cases hr; rfl

theorem parse_congr {E : Env} {s t : FS} {base : Path}
    (h : look t (base ++ [inventoryFilename]) = look s (base ++ [inventoryFilename])) {inv : Inv}
    (hp : parseInventory E base s = .ok inv) : parseInventory E base t = .ok inv := by
  unfold parseInventory readText at hp ⊢
  rw [look_inventory] at hp ⊢
  cases hr : FS.read s (base ++ [inventoryFilename]) with
  | error e => rw [hr] at hp; cases hp
  | ok b =>
    rw [hr] at hp
    rw [read_congr h hr]
    exact hp

theorem extractSetup_congr {E : Env} {s t : FS} {objdir version : Str} (hb : look t (absComps E.cwd objdir) = look s (absComps E.cwd objdir))
    (h : look t (absComps E.cwd objdir ++ [inventoryFilename]) = look s (absComps E.cwd objdir ++ [inventoryFilename]))
    {base : Path} {inv : Inv} {v : Str} (hs : extractSetup E objdir version s = .ok (base, inv, v)) :
    extractSetup E objdir version t = .ok (base, inv, v) ∧ parseInventory E (absComps E.cwd objdir) s = .ok inv := by
  unfold extractSetup at hs ⊢
  cases ho : openObj E objdir s with
  | error e => rw [ho] at hs; cases hs
  | ok base' =>
    obtain ⟨rfl, hd⟩ := openObj_ok ho
    rw [ho] at hs
    rw [openObj_dir (by rw [hb]; exact hd)]
    dsimp only at hs ⊢
    cases hp : parseInventory E (absComps E.cwd objdir) s with
    | error e => rw [hp] at hs; cases hs
    | ok inv' =>
      rw [hp] at hs
      rw [parse_congr h hp]
      dsimp only at hs ⊢
      refine ⟨hs, ?_⟩
      split at hs
      · cases hs; rfl
      · split at hs
        · cases hs
        · split at hs
          · cases hs; rfl
          · cases hs

/-- The metadata that an extraction returns. -/
theorem extract_metadata {E : Env} {s s' : FS} {objdir version dstdir : Str} {md : VMeta}
    (hr : run (extract E objdir version dstdir) s = (s', .ok md)) {base : Path} {inv : Inv} {v : Str}
    (hs : extractSetup E objdir version s = .ok (base, inv, v)) : versionMetadata inv v = .ok md := by
  unfold extract at hr
  obtain ⟨s1, ⟨base1, inv1, v1⟩, h1, h2⟩ := run_bind_inv hr
  rw [run_look, hs] at h1
  obtain ⟨_, h1⟩ := Prod.mk.inj h1
  cases h1
  obtain ⟨s2, _, _, h3⟩ := run_bind_inv h2
  obtain ⟨s3, _, _, h4⟩ := run_bind_inv h3
  exact (Prod.mk.inj h4).2

/-- A content path of a parsed inventory has at least two names. -/
theorem content_deep {E : Env} (hlib : E.lib.Lawful) {base : Path} {s : FS} {inv : Inv} (h : parseInventory E base s = .ok inv)
    {c : Str} (hc : c ∈ listed inv.manifestD) {ws : List Str} (hws : LogicalPath ws c) : ∃ w q, ws = w :: q ∧ q ≠ [] := by
  obtain ⟨_, _, _, _, _, m, vs, _, _, _, _, hp⟩ := parse_readFrom hlib h
  rw [hp.good.manifestD] at hc
  obtain ⟨v, _, segs, hcp⟩ := hp.good.manifestRules.paths c hc
  cases ws with
  | nil => exact absurd rfl hws.1
  | cons w q =>
    refine ⟨w, q, rfl, ?_⟩
    rintro rfl
    have hsl : '/' ∉ c := by
      rw [hws.2.2, show pathOf [w] = w from by simp [pathOf]]
      exact (hws.2.1 w (by simp)).2.2.2
    obtain ⟨_, _, _, tail, rfl, _⟩ := hcp
    exact hsl (by simp [pathOf])

/-- Two states with the same root inventory and the same content files give the same extraction. -/
theorem extract_same {E : Env} (hlib : E.lib.Lawful) (hcwd : ∀ w ∈ E.cwd, SafeName w) {s t : FS} (hws : s.WF) (hwt : t.WF)
    {objdir version dstdir : Str} (hb : look t (absComps E.cwd objdir) = look s (absComps E.cwd objdir))
    (hroot : look t (absComps E.cwd objdir ++ [inventoryFilename]) = look s (absComps E.cwd objdir ++ [inventoryFilename]))
    (hkept : ∀ w q b, q ≠ [] → look s (absComps E.cwd objdir ++ w :: q) = some (.file b) →
      look t (absComps E.cwd objdir ++ w :: q) = some (.file b))
    (hout : ¬ absComps E.cwd objdir <+: absComps E.cwd dstdir)
    (hcp : PlainContent E.lib s (absComps E.cwd objdir ++ [inventoryFilename]))
    (hp : look t (dstParent E dstdir) = some .dir) (hvac : Vacant t (absComps E.cwd dstdir))
    {s1 : FS} {md : VMeta} (hr : run (extract E objdir version dstdir) s = (s1, .ok md)) :
    ∃ t1, run (extract E objdir version dstdir) t = (t1, .ok md) ∧
      (∀ r b, FileBelow t1 (absComps E.cwd dstdir) r b ↔ FileBelow s1 (absComps E.cwd dstdir) r b) ∧
      ∀ q, ¬ absComps E.cwd dstdir <+: q → look t1 q = look t q := by
  obtain ⟨hw1, inv, v, hset, hitems, j, m, vs, states, hst, hview, hsel, _, hlst, hex⟩ := run_extract hlib hcwd hws hout hcp hr
  obtain ⟨hset', hparse⟩ := extractSetup_congr hb hroot hset
  obtain ⟨_, _, j2, m2, vs2, states2, hst2, hview2, _, hx, _, _, hlm, _⟩ := extractSetup_ok hlib hset
  have hcpi : ∀ c ∈ listed inv.manifestD, ∃ ws, LogicalPath ws c := by
    intro c hc
    exact hcp j2 m2 c hst2 hview2.manifest ((hlm c).mp hc)
  have hcp' : PlainContent E.lib t (absComps E.cwd objdir ++ [inventoryFilename]) := plain_of_setup hlib hset' hcpi
  have hlk : ∀ c ∈ listed inv.manifestD, ∀ b, look s (FS.resolve (absComps E.cwd objdir) c) = some (.file b) →
      look t (FS.resolve (absComps E.cwd objdir) c) = some (.file b) := by
    intro c hc b hl
    obtain ⟨ws, hws'⟩ := hcpi c hc
    obtain ⟨w, q, rfl, hq⟩ := content_deep hlib hparse hc hws'
    rw [(logical_resolve hws' _).1] at hl ⊢
    exact hkept w q b hq hl
  have hin : ∀ {c p}, (c, p) ∈ extractItems inv.manifestD (inv.stateOf v) → c ∈ listed inv.manifestD := by
    intro c p hi
    obtain ⟨d, _, hd⟩ := (hx.item hi).2
    exact mem_listed.mpr ⟨d, hd⟩
  obtain ⟨t1, md', ht⟩ := extract_items_succeeds hlib hcwd hwt hset' hout hcpi hp hvac
    (by
      intro c p hi
      obtain ⟨segs, c', b, _, h2, h3, _⟩ := hitems p (hx.item hi).1
      have e2 := extractItems_first hx h2
      rw [extractItems_first hx hi] at e2
      cases e2
      exact ⟨b, hlk _ (hin h2) b h3⟩)
    (by
      intro p hp' q hq ps qs hps hqs hpre
      by_contra hne
      obtain ⟨segs, c, b, hs, _, _, hl⟩ := hitems p hp'
      obtain ⟨segs2, c2, b2, hs2, _, _, hl2⟩ := hitems q hq
      have e1 : segs = ps := pathOf_inj' ⟨hs.1, hs.2.1⟩ ⟨hps.1, hps.2.1⟩ (by rw [← hs.2.2, hps.2.2])
      have e2 : segs2 = qs := pathOf_inj' ⟨hs2.1, hs2.2.1⟩ ⟨hqs.1, hqs.2.1⟩ (by rw [← hs2.2.2, hqs.2.2])
      subst e1 e2
      have := look_prefix hw1 ((List.prefix_append_right_inj (absComps E.cwd dstdir)).mpr hpre) (by simpa using hne) hl2
      rw [hl] at this
      cases this)
  have hmd : md' = md := by
    have h1 := extract_metadata hr hset
    have h2 := extract_metadata ht hset'
    rw [h1] at h2
    cases h2
    rfl
  subst hmd
  obtain ⟨hw2, inv2, v2, hset2, hitems2, j3, m3, vs3, states3, hst3, _, _, _, hlst3, hex3⟩ := run_extract hlib hcwd hwt hout hcp' ht
  rw [hset'] at hset2
  cases hset2
  have hboth : ∀ p ∈ listed (inv.stateOf v), ∃ segs b, LogicalPath segs p ∧ look s1 (absComps E.cwd dstdir ++ segs) = some (.file b) ∧
      look t1 (absComps E.cwd dstdir ++ segs) = some (.file b) := by
    intro p hp'
    obtain ⟨segs, c, b, h1, h2, h3, h4⟩ := hitems p hp'
    obtain ⟨segs', c', b', k1, k2, k3, k4⟩ := hitems2 p hp'
    have e1 : segs = segs' := pathOf_inj' ⟨h1.1, h1.2.1⟩ ⟨k1.1, k1.2.1⟩ (by rw [← h1.2.2, k1.2.2])
    subst e1
    have e2 := extractItems_first hx h2
    rw [extractItems_first hx k2] at e2
    cases e2
    rw [hlk c (hin h2) b h3] at k3
    cases k3
    exact ⟨segs, b, h1, h4, k4⟩
  have hfile : ∀ {u u1 : FS} {m st : List (Str × List Str)}, u1.WF → Extracted u u1 (absComps E.cwd objdir) (absComps E.cwd dstdir) m st →
      ∀ {r b}, FileBelow u1 (absComps E.cwd dstdir) r b → pathOf r ∈ listed st ∧ LogicalPath r (pathOf r) := by
    intro u u1 m st hwu hu r b hf
    obtain ⟨ws, ⟨d, hd, _⟩, _⟩ := hu.files r b hf.2
    exact ⟨mem_listed.mpr ⟨d, hd⟩, hf.1, fun w hw => look_names hwu hf.2 w (List.mem_append_right _ hw), rfl⟩
  refine ⟨t1, ht, ?_, hex3.untouched⟩
  intro r b
  constructor
  · intro hf
    obtain ⟨h1, h2⟩ := hfile hw2 hex3 hf
    obtain ⟨segs, b', h3, h4, h5⟩ := hboth _ ((hlst3 _).mpr h1)
    have e1 : segs = r := pathOf_inj' ⟨h3.1, h3.2.1⟩ ⟨h2.1, h2.2.1⟩ h3.2.2.symm
    subst e1
    rw [hf.2] at h5
    cases h5
    exact ⟨hf.1, h4⟩
  · intro hf
    obtain ⟨h1, h2⟩ := hfile hw1 hex hf
    obtain ⟨segs, b', h3, h4, h5⟩ := hboth _ ((hlst _).mpr h1)
    have e1 : segs = r := pathOf_inj' ⟨h3.1, h3.2.1⟩ ⟨h2.1, h2.2.1⟩ h3.2.2.symm
    subst e1
    rw [hf.2] at h4
    cases h4
    exact ⟨hf.1, h5⟩

end Ocfl
