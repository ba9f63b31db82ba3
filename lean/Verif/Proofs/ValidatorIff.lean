import Verif.Proofs.ValidatorObject
import Verif.Props.Namaste

/-!
# Object validation: the verdict is that of the rules
-/

namespace Ocfl

open Spec FS

theorem nodup_singleton_iff {α : Type} {l : List α} (h : l.Nodup) {a : α} : l = [a] ↔ ∀ x, x ∈ l ↔ x = a := by
  constructor
  · rintro rfl x
    simp
  · intro hx
    refine List.perm_singleton.mp ((List.perm_ext_iff_of_nodup h (List.nodup_singleton a)).mpr fun x => ?_)
    rw [hx, List.mem_singleton]

namespace Validator

open W (Pass pass_ret pass_after pass_bind pass_unit_bind pass_err pass_warn pass_errUnless pass_py pass_log pass_ite
  pass_raised pass_abort pass_forEach pass_forM_nil pass_forM_cons)

variable {E : Env} {cfg : Config} {s : FS} {base : Path}

theorem styleName_ne {style : Option Nat} {i : Nat} {w : Str} (h : w.head? ≠ some 'v') : styleName style i ≠ w := by
  rintro rfl
  exact h (styleName_head _ _)

theorem says_of_rules {j : Json} {alg cd : Str} {m : List (Str × List Str)} {vs : List (Str × Json)}
    {states : Str → List (Str × List Str)} {style : Option Nat} {n : Nat} (h : RulesWith false none j (.str alg) cd m vs states style n) :
    ∃ idv sp cd', cd'.getD c!"content" = cd ∧ Says j (resultFor idv sp (.str alg) cd' m style n) idv sp alg cd' m vs states style n := by
  obtain ⟨idv, hid, hidm⟩ := h.id
  obtain ⟨sp, hsp⟩ := inventorySpec_of_rules h
  rcases id h.contentDirectory with ⟨hm, _⟩ | ⟨hm, he⟩
  · exact ⟨idv, sp, some cd, rfl, h, hidm, hsp, .inl ⟨cd, rfl, hm⟩, rfl⟩
  · exact ⟨idv, sp, none, he.symm, by rw [he] at h; exact h, hidm, hsp, .inr ⟨rfl, hm⟩, rfl⟩

/-- The files of the root, once the only declaration is known. -/
theorem root_files {spec alg : Str} {w : Str} :
    w ∈ [c!"0=ocfl_object_" ++ spec, c!"inventory.json", c!"inventory.json." ++ alg] ++ [c!"ocfl_object_" ++ spec].map (namasteFilename 0) ↔
      w = c!"0=ocfl_object_" ++ spec ∨ w = c!"inventory.json" ∨ w = c!"inventory.json." ++ alg := by
  have : namasteFilename 0 (c!"ocfl_object_" ++ spec) = c!"0=ocfl_object_" ++ spec := rfl
  simp only [List.map_cons, List.map_nil, this, List.mem_append, List.mem_cons, List.not_mem_nil, or_false]
  tauto

theorem validateAt_iff (hE : Libraries E) (hlax : cfg.lax = false) (hw : s.WF) (hd : look s base = some .dir) :
    (∃ es, validateAt E cfg 0 s base = .ok (true, es)) ↔ ValidObject E cfg.checkDigests s base := by
  rw [verdict_true]
  obtain ⟨l, hnodup, _, hmem, hfind⟩ := C52_find hw (base := base) (ws := []) (by simp) (dir := []) (.inl rfl) (by simpa using hd) 0
  have hmem' : ∀ t, t ∈ l ↔ look s (base ++ [c!"0=" ++ t]) ≠ none := by
    intro t
    rw [hmem]
    have : natStr 0 ++ c!"=" ++ t = c!"0=" ++ t := rfl
    rw [this, List.append_nil]
  have hresinv : FS.resolve base inventoryFilename = base ++ [c!"inventory.json"] := FS.resolve_name base (by decide)
  have hslash : ∀ sp ∈ Spec.supported, '/' ∉ c!"ocfl_object_" ++ sp ∧ c!"ocfl_object_" ++ sp ≠ [] := by decide
  constructor
  · rintro ⟨tvalues, spec, ⟨j, res⟩, hf, h1, h2⟩
    unfold validateFirst at h1
    simp only [pass_bind, pass_ite, pass_err, false_and, exists_false, and_false, false_or, pass_ret] at h1
    obtain ⟨spec', hdecl, hex, jr', hinv, heq⟩ := h1
    cases heq
    obtain ⟨hsup, rfl, hok⟩ := pass_checkDeclaration.mp hdecl
    obtain ⟨hst, hclean⟩ := (pass_validateInventory hresinv).mp hinv
    rw [hlax] at hclean
    have hjwf := storedJson_wf hE.json hst
    obtain ⟨idv, sp, alg, cd, m, vs, states, style, n, hs⟩ := (clean_says hjwf).mp hclean
    have halg := alg_of_rules hs.rules
    have hra : res.digestAlgorithm = .str alg := by rw [hs.result]; rfl
    have hrv : res.allVersions = namesFrom style 1 n := by rw [hs.result]; rfl
    unfold validateRest at h2
    simp only [pass_bind, pass_py, hra, hrv] at h2
    obtain ⟨alg', ha, _, hdig, _, hroot, st, hver, hcont⟩ := h2
    cases ha
    rw [if_pos trivial] at hcont
    have hsays : Says (Root.mk spec alg j res).inv (Root.mk spec alg j res).res idv sp (Root.mk spec alg j res).alg cd m vs states style n := hs
    have hside : Sidecar E cfg.checkDigests s (base ++ []) alg := by
      rw [← pass_validateInventoryDigest hE.word hE.blank VDir.root (by simp) halg (cfg := cfg) (base := base) (u := ())]
      rw [osPathJoin_nil]
      exact hdig
    have hnames := hs.rules.names
    have hvsn : ∀ v, v ∈ namesFrom style 1 n ↔ v ∈ vs.map Prod.fst := by
      intro v
      rw [mem_namesFrom, hnames.2.2.2]
      constructor
      · rintro ⟨i, h1, h2, h3⟩; exact ⟨i, h1, by omega, h3⟩
      · rintro ⟨i, h1, h2, h3⟩; exact ⟨i, h1, by omega, h3⟩
    rw [pass_validateObjectRoot hw hd (by
      rw [mem_namesFrom]
      rintro ⟨i, _, _, h⟩
      exact styleName_ne (by decide) h.symm)] at hroot
    obtain ⟨hfiles, hdirs, hexts⟩ := hroot
    have hfiles : ∀ w b, look s (base ++ [w]) = some (.file b) →
        w = c!"0=ocfl_object_" ++ spec ∨ w = c!"inventory.json" ∨ w = c!"inventory.json." ++ alg :=
      fun w b h => root_files.mp (hfiles w b h)
    obtain ⟨hvr, hsto⟩ := versions_pass hE hlax (root := ⟨spec, alg, j, res⟩) hsup hst hsays hver
    obtain ⟨bi, ti, hbi, _, _⟩ := id hst
    have hcr := (pass_validateContent (cfg := cfg) hE hw (root := ⟨spec, alg, j, res⟩) hjwf hsays hsto (by
      intro i _ _ b hl
      rcases hfiles _ b hl with h | h | h
      · exact styleName_ne (by simp) h
      · exact styleName_ne (by decide) h
      · exact styleName_ne (by simp) h) (by
      intro i h1 h2 hl
      by_cases hi : i = n
      · subst hi
        have := (hvr.headInventory (by rw [hl]; simp)).1
        rw [hl, hbi] at this
        cases this
      · obtain ⟨j', ⟨b, t, hb, _, _⟩, _⟩ := hvr.priorInventory i h1 (by omega) (by rw [hl]; simp)
        rw [hl] at hb
        cases hb)).mp hcont
    have hl1 : l = [c!"ocfl_object_" ++ spec] := by
      have := hfind 10
      rw [hf] at this
      split at this
      · cases this
      · exact (Except.ok.inj this).symm
    refine ⟨spec, j, alg, cd.getD c!"content", m, vs, states, style, n, ?_⟩
    exact {
      supported := hsup
      declaration := (contentOk_true (hslash _ hsup).1 (hslash _ hsup).2).mp hok
      oneDeclaration := fun t ht => by
        have := (hmem' t).mpr ht
        rw [hl1, List.mem_singleton] at this
        exact this
      inventory := hst
      rules := hs.rules
      sidecar := by rw [List.append_nil] at hside; exact hside
      files := hfiles
      dirs := fun w h => by
        rcases hdirs w h with h | h
        · exact .inl ((hvsn w).mp h)
        · exact .inr h
      extensions := hexts
      versionDirs := fun v hv => hcr.versionDirs v ((hvsn v).mpr hv)
      headInventory := hvr.headInventory
      priorInventory := hvr.priorInventory
      priorManifests := hvr.priorManifests
      priorSpecs := hvr.priorSpecs
      headSpec := hvr.headSpec
      versionFiles := fun v hv => hcr.versionFiles v ((hvsn v).mpr hv)
      content := fun p => by
        rw [hcr.content p]
        simp only [hvsn]
      noEmpty := fun v hv => hcr.noEmpty v ((hvsn v).mpr hv)
      digests := hcr.digests
      fixity := hcr.fixity
      priorDigests := hcr.priorDigests
      priorFixity := hcr.priorFixity }
  · rintro ⟨spec, j, alg, cd, m, vs, states, style, n, h⟩
    have hjwf := storedJson_wf hE.json h.inventory
    have halg := alg_of_rules h.rules
    obtain ⟨idv, sp, cd', rfl, hs⟩ := says_of_rules h.rules
    have hl1 : l = [c!"ocfl_object_" ++ spec] := by
      rw [nodup_singleton_iff hnodup]
      intro t
      rw [hmem']
      constructor
      · exact h.oneDeclaration t
      · rintro rfl
        obtain ⟨b, _, hb, _⟩ := h.declaration
        have : c!"0=" ++ (c!"ocfl_object_" ++ spec) = c!"0=ocfl_object_" ++ spec := rfl
        rw [this, hb]
        simp
    have hf := hfind 10
    rw [hl1, if_neg (by simp)] at hf
    obtain ⟨bi, ti, hbi, _, _⟩ := id h.inventory
    have hex : FS.exists_ s (FS.resolve base inventoryFilename) = true := by
      rw [hresinv]
      unfold FS.exists_
      rw [hbi]
      rfl
    refine ⟨_, spec, (j, resultFor idv sp (.str alg) cd' m style n), hf, ?_, ?_⟩
    · unfold validateFirst
      simp only [pass_bind, pass_ite, pass_err, false_and, exists_false, and_false, false_or, pass_ret]
      refine ⟨spec, pass_checkDeclaration.mpr ⟨h.supported, rfl,
        (contentOk_true (hslash _ h.supported).1 (hslash _ h.supported).2).mpr h.declaration⟩, by rw [hex]; simp, _,
        (pass_validateInventory hresinv).mpr ⟨h.inventory, ?_⟩, rfl⟩
      rw [hlax]
      exact (clean_says hjwf).mpr ⟨_, _, _, _, _, _, _, _, _, hs⟩
    · have hsays : Says (Root.mk spec alg j (resultFor idv sp (.str alg) cd' m style n)).inv
          (Root.mk spec alg j (resultFor idv sp (.str alg) cd' m style n)).res idv sp
          (Root.mk spec alg j (resultFor idv sp (.str alg) cd' m style n)).alg cd' m vs states style n := hs
      have hnames := h.rules.names
      have hvsn : ∀ v, v ∈ namesFrom style 1 n ↔ v ∈ vs.map Prod.fst := by
        intro v
        rw [mem_namesFrom, hnames.2.2.2]
        constructor
        · rintro ⟨i, h1, h2, h3⟩; exact ⟨i, h1, by omega, h3⟩
        · rintro ⟨i, h1, h2, h3⟩; exact ⟨i, h1, by omega, h3⟩
      obtain ⟨st, hver⟩ := pass_versions hE hlax (root := ⟨spec, alg, j, resultFor idv sp (.str alg) cd' m style n⟩) h.supported h.inventory hsays
        ⟨h.headInventory, h.priorInventory, h.priorManifests, h.priorSpecs, h.headSpec⟩
      obtain ⟨_, hsto⟩ := versions_pass hE hlax (root := ⟨spec, alg, j, resultFor idv sp (.str alg) cd' m style n⟩) h.supported h.inventory hsays hver
      unfold validateRest
      simp only [pass_bind, pass_py]
      refine ⟨alg, rfl, (), ?_, (), ?_, st, hver, ?_⟩
      · have := (pass_validateInventoryDigest hE.word hE.blank VDir.root (by simp) halg (cfg := cfg) (s := s) (base := base) (u := ())).mpr
          (by rw [List.append_nil]; exact h.sidecar)
        rw [osPathJoin_nil] at this
        exact this
      · refine (pass_validateObjectRoot hw hd (by
          show c!"extensions" ∉ namesFrom style 1 n
          rw [mem_namesFrom]
          rintro ⟨i, _, _, h⟩
          exact styleName_ne (by decide) h.symm)).mpr ⟨fun w b hl => root_files.mpr (h.files w b hl), fun w hl => ?_, h.extensions⟩
        rcases h.dirs w hl with hm | hm
        · exact .inl ((hvsn w).mpr hm)
        · exact .inr hm
      · rw [if_pos trivial]
        refine (pass_validateContent (cfg := cfg) hE hw (root := ⟨spec, alg, j, resultFor idv sp (.str alg) cd' m style n⟩) hjwf hsays hsto (by
          intro i h1 h2 b hl
          have := h.versionDirs _ ((hnames.2.2.2 _).mpr ⟨i, h1, h2, rfl⟩)
          rw [hl] at this
          cases this) (by
          intro i h1 h2 hl
          by_cases hi : i = n
          · subst hi
            have := (h.headInventory (by rw [hl]; simp)).1
            rw [hl, hbi] at this
            cases this
          · obtain ⟨j', ⟨b, t, hb, _, _⟩, _⟩ := h.priorInventory i h1 (by omega) (by rw [hl]; simp)
            rw [hl] at hb
            cases hb)).mpr ?_
        exact {
          versionDirs := fun v hv => h.versionDirs v ((hvsn v).mp hv)
          versionFiles := fun v hv => h.versionFiles v ((hvsn v).mp hv)
          content := fun p => by
            rw [h.content p]
            simp only [hvsn]
          noEmpty := fun v hv => h.noEmpty v ((hvsn v).mp hv)
          digests := h.digests
          fixity := h.fixity
          priorDigests := h.priorDigests
          priorFixity := h.priorFixity }

end Validator
end Ocfl
