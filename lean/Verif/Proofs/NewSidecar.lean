import Verif.Proofs.CopyValid
import Verif.Proofs.Sidecar
import Verif.Proofs.ValidatorVersions
import Verif.Props.Sidecar
import Verif.Model.SidecarCli

/-!
# A new sidecar beside the root inventory
-/

namespace Ocfl

open Spec FS Prog

section
variable {E : Env} {s s' : FS} {base : Path} {side : Str} (hn : ∀ q, q ≠ [side] → look s' (base ++ q) = look s (base ++ q))
include hn

theorem storedJson_beside {lib : JsonLib} {q : Path} (hq : q ≠ [side]) {j : Json} :
    StoredJson lib s' (base ++ q) j ↔ StoredJson lib s (base ++ q) j := by
  unfold StoredJson
  rw [hn q hq]

theorem digestIs_beside {q : Path} (hq : q ≠ [side]) {a d : Str} : DigestIs E s' (base ++ q) a d ↔ DigestIs E s (base ++ q) a d := by
  unfold DigestIs
  rw [hn q hq]

theorem sidecar_beside {check : Bool} {v a : Str} : Sidecar E check s' (base ++ [v]) a ↔ Sidecar E check s (base ++ [v]) a := by
  unfold Sidecar SidecarGood
  simp only [List.append_assoc]
  rw [hn _ (by simp), hn _ (by simp)]

end

theorem slash_in_path {v cd : Str} {ws : Path} : '/' ∈ pathOf (v :: cd :: ws) := by
  unfold pathOf
  simp [joinWith]

/-- The rules hold with another sidecar that is right. -/
theorem ObjectRules.newSidecar {E : Env} {check : Bool} {s s' : FS} {base : Path} {spec : Str} {j : Json} {alg cd : Str}
    {m : List (Str × List Str)} {vs : List (Str × Json)} {states : Str → List (Str × List Str)} {style : Option Nat} {n : Nat}
    (hv : ObjectRules E check s base spec j alg cd m vs states style n)
    (hn : ∀ q, q ≠ [c!"inventory.json." ++ alg] → look s' (base ++ q) = look s (base ++ q))
    (hdir : look s (base ++ [c!"inventory.json." ++ alg]) ≠ some .dir)
    (hgood : SidecarGood E s' base alg) :
    ObjectRules E check s' base spec j alg cd m vs states style n := by
  obtain ⟨sb, _, _, _, hsb, _⟩ := id hgood
  have halg : alg = c!"sha512" ∨ alg = c!"sha256" := by
    have := hv.rules.digestAlgorithm.2
    simpa [AlgRule] using this
  have hslash : '/' ∉ c!"inventory.json." ++ alg := by rcases halg with rfl | rfl <;> decide
  have hlisted : ∀ ws, pathOf ws ∈ listed m → ws ≠ [c!"inventory.json." ++ alg] := by
    rintro ws hl rfl
    obtain ⟨v, ws, b, _, _, e, _⟩ := (hv.content _).mp hl
    refine hslash ?_
    have : '/' ∈ pathOf [c!"inventory.json." ++ alg] := by rw [e]; exact slash_in_path
    simpa [pathOf, joinWith] using this
  have hother : ∀ {w : Str}, w ≠ c!"inventory.json." ++ alg → look s' (base ++ [w]) = look s (base ++ [w]) := by
    intro w hw
    exact hn [w] (by simpa using hw)
  have hinv : c!"inventory.json" ≠ c!"inventory.json." ++ alg := by
    intro e
    have := congrArg List.length e
    simp at this
  have hdecl : ∀ t, c!"0=" ++ t ≠ c!"inventory.json." ++ alg := by
    intro t e
    have := congrArg List.head? e
    simp at this
  exact {
    supported := hv.supported
    declaration := by
      obtain ⟨b, t, hb, ht⟩ := hv.declaration
      refine ⟨b, t, ?_, ht⟩
      exact (hother (hdecl (c!"ocfl_object_" ++ spec))).trans hb
    oneDeclaration := fun t hl => hv.oneDeclaration t (by rw [← hother (hdecl t)]; exact hl)
    inventory := (storedJson_beside hn (by simpa using hinv)).mpr hv.inventory
    rules := hv.rules
    sidecar := ⟨by rw [hsb]; simp, fun _ => hgood⟩
    files := fun w b hl => by
      by_cases hw : w = c!"inventory.json." ++ alg
      · exact .inr (.inr hw)
      · exact hv.files w b (by rw [← hother hw]; exact hl)
    dirs := fun w hl => by
      by_cases hw : w = c!"inventory.json." ++ alg
      · rw [hw, hsb] at hl; cases hl
      · exact hv.dirs w (by rw [← hother hw]; exact hl)
    extensions := fun w b hl => hv.extensions w b (by rw [← hn _ (by simp)]; exact hl)
    versionDirs := fun v hvm => by
      have := hv.versionDirs v hvm
      rw [hother]
      · exact this
      · rintro rfl
        exact hdir this
    headInventory := fun hl => by
      rw [hn _ (by simp)] at hl
      obtain ⟨h1, h2⟩ := hv.headInventory hl
      refine ⟨?_, (sidecar_beside hn).mpr h2⟩
      rw [hn _ (by simp), hother hinv]
      exact h1
    priorInventory := fun i h1 h2 hl => by
      rw [hn _ (by simp)] at hl
      obtain ⟨j', hj, hp⟩ := hv.priorInventory i h1 h2 hl
      refine ⟨j', (storedJson_beside hn (by simp)).mpr hj, ?_⟩
      obtain ⟨a, m', vs', st', sty', n', k1, k2⟩ := hp.rules
      exact ⟨⟨a, m', vs', st', sty', n', k1, (sidecar_beside hn).mpr k2⟩, hp.id, hp.contentDirectory, hp.history⟩
    priorManifests := fun i k h1 h2 h3 j1 j2 m1 m2 hj1 hj2 => hv.priorManifests i k h1 h2 h3 j1 j2 m1 m2
      ((storedJson_beside hn (by simp)).mp hj1) ((storedJson_beside hn (by simp)).mp hj2)
    priorSpecs := fun i k h1 h2 h3 j1 j2 v1 v2 hj1 hj2 => hv.priorSpecs i k h1 h2 h3 j1 j2 v1 v2
      ((storedJson_beside hn (by simp)).mp hj1) ((storedJson_beside hn (by simp)).mp hj2)
    headSpec := fun hl i h1 h2 j1 v1 hj1 => hv.headSpec (by rw [← hn _ (by simp)]; exact hl) i h1 h2 j1 v1
      ((storedJson_beside hn (by simp)).mp hj1)
    versionFiles := fun v hvm w b hl => by
      rw [hn _ (by simp)] at hl
      rcases hv.versionFiles v hvm w b hl with e | e | ⟨j', a, hj, ha, e⟩
      · exact .inl e
      · exact .inr (.inl e)
      · exact .inr (.inr ⟨j', a, (storedJson_beside hn (by simp)).mpr hj, ha, e⟩)
    content := fun x => by
      rw [hv.content x]
      have h1 : ∀ v (ws : Path), look s' (base ++ v :: cd :: ws) = look s (base ++ v :: cd :: ws) := fun v ws => hn _ (by simp)
      have h2 : ∀ v j', StoredJson E.lib s' (base ++ [v, c!"inventory.json"]) j' ↔ StoredJson E.lib s (base ++ [v, c!"inventory.json"]) j' :=
        fun v j' => storedJson_beside hn (by simp)
      simp only [h1, h2]
    noEmpty := fun v hvm ws hws hl hne => by
      rw [hn _ (by simp)] at hl
      obtain ⟨w, hw⟩ := hv.noEmpty v hvm ws hws hl (fun j' a hj => hne j' a ((storedJson_beside hn (by simp)).mpr hj))
      refine ⟨w, ?_⟩
      rw [List.append_assoc, hn _ (by simp), ← List.append_assoc]
      exact hw
    digests := fun hck d ws hl hs => (digestIs_beside hn (hlisted ws (lists_listed hl))).mpr (hv.digests hck d ws hl hs)
    fixity := fun hck a d ws hl hs => by
      refine (digestIs_beside hn (hlisted ws ?_)).mpr (hv.fixity hck a d ws hl hs)
      obtain ⟨fx, fm, h1, h2, h3⟩ := hl
      obtain ⟨_, m', e, _, _, h4⟩ := (hv.rules.fixity fx h1).block a _ h2
      cases ofDigestMap_inj e
      exact h4 _ (lists_listed h3)
    priorDigests := fun hck i h1 h2 j' a m' d ws hj ha hm hl hs hin =>
      (digestIs_beside hn (hlisted ws hin)).mpr
        (hv.priorDigests hck i h1 h2 j' a m' d ws ((storedJson_beside hn (by simp)).mp hj) ha hm hl hs hin)
    priorFixity := fun hck i h1 h2 j' a d ws hj hl hs hin =>
      (digestIs_beside hn (hlisted ws hin)).mpr
        (hv.priorFixity hck i h1 h2 j' a d ws ((storedJson_beside hn (by simp)).mp hj) hl hs hin) }

/-- What is written: a line with the digest of the inventory. -/
theorem run_sidecar {E : Env} {alg d : Str} {base : Path} {s : FS} {i : Bytes} (hb : look s base = some .dir)
    (hi : look s (base ++ [inventoryFilename]) = some (.file i)) (hd : fileDigest E.raw alg i = some d)
    (hs : look s (base ++ [sidecarName alg]) ≠ some .dir) :
    run (writeInventoryAndSidecar E { digestAlgorithm := alg } base none []) s =
      (Dict.set s (base ++ [sidecarName alg]) (.file (sidecarLine d)), .ok ()) := by
  have hv := VDir.root
  unfold writeInventoryAndSidecar
  rw [run_get, hv.resolve base, hv.resolve_in base (w := inventoryFilename) (by decide),
    show (inventoryFilename ++ c!"." ++ alg) = sidecarName alg from rfl, hv.resolve_in base (sidecar_safe (fileDigest_noSlash hd))]
  simp only [List.append_nil]
  have hex : FS.exists_ s base = true := by simp [FS.exists_, hb]
  rw [hex, if_neg (by simp), run_bind_ok (run_ret _ _), run_bind_ok (run_ret _ _),
    run_bind_ok (show run (Prog.look (fun s => digestAt E s (base ++ [inventoryFilename]) alg)) s = (s, .ok d) by
      rw [run_look, digestAt_ok.mpr ⟨i, hi, hd⟩])]
  exact FS.exec_write hs (by rw [List.dropLast_concat]; exact hb)

/-- In general: it fails and changes nothing, or that. -/
theorem run_sidecar_cases {E : Env} {alg : Str} {base : Path} {s : FS} (hb : look s base = some .dir) :
    (∃ e, run (writeInventoryAndSidecar E { digestAlgorithm := alg } base none []) s = (s, .error e)) ∨
    ∃ i d, look s (base ++ [inventoryFilename]) = some (.file i) ∧ fileDigest E.raw alg i = some d ∧
      look s (base ++ [sidecarName alg]) ≠ some .dir ∧
      run (writeInventoryAndSidecar E { digestAlgorithm := alg } base none []) s =
        (Dict.set s (base ++ [sidecarName alg]) (.file (sidecarLine d)), .ok ()) := by
  cases hdig : digestAt E s (base ++ [inventoryFilename]) alg with
  | error e =>
    refine Or.inl ⟨e, ?_⟩
    have hv := VDir.root
    unfold writeInventoryAndSidecar
    rw [run_get, hv.resolve base, hv.resolve_in base (w := inventoryFilename) (by decide)]
    simp only [List.append_nil]
    have hex : FS.exists_ s base = true := by simp [FS.exists_, hb]
    rw [hex, if_neg (by simp), run_bind_ok (run_ret _ _), run_bind_ok (run_ret _ _),
      run_bind_error (by rw [run_look, hdig])]
  | ok d =>
    obtain ⟨i, hi, hd⟩ := digestAt_ok.mp hdig
    by_cases hs : look s (base ++ [sidecarName alg]) = some .dir
    · refine Or.inl ⟨.isADirectory, ?_⟩
      have hv := VDir.root
      unfold writeInventoryAndSidecar
      rw [run_get, hv.resolve base, hv.resolve_in base (w := inventoryFilename) (by decide),
        show (inventoryFilename ++ c!"." ++ alg) = sidecarName alg from rfl, hv.resolve_in base (sidecar_safe (fileDigest_noSlash hd))]
      simp only [List.append_nil]
      have hex : FS.exists_ s base = true := by simp [FS.exists_, hb]
      rw [hex, if_neg (by simp), run_bind_ok (run_ret _ _), run_bind_ok (run_ret _ _),
        run_bind_ok (show run (Prog.look (fun s => digestAt E s (base ++ [inventoryFilename]) alg)) s = (s, .ok d) by rw [run_look, hdig])]
      change FS.exec (.write (base ++ [sidecarName alg]) (sidecarLine d)) s = _
      unfold FS.exec
      dsimp only
      rw [hs]
    · exact Or.inr ⟨i, d, hi, hd, hs, run_sidecar hb hi hd hs⟩

/-- A line with a hexadecimal digest is right. -/
theorem sidecarGood_line {E : Env} (hhash : HashLib E.raw) (hword : WordClass E.isWord) {s : FS} {dir : Path} {alg d : Str} {n : Nat} {i : Bytes}
    (halg : hexLength alg = some n) (hi : look s (dir ++ [inventoryFilename]) = some (.file i)) (hd : fileDigest E.raw alg i = some d)
    (hs : look s (dir ++ [sidecarName alg]) = some (.file (sidecarLine d))) : SidecarGood E s dir alg := by
  rw [fileDigest_hexLength halg] at hd
  cases hd
  obtain ⟨h1, h2⟩ := hhash alg n halg i
  have hnc : '\r' ∉ E.raw alg i ++ c!" " ++ inventoryFilename ++ c!"\n" := by
    simp only [List.mem_append, not_or]
    refine ⟨⟨⟨fun h => ?_, by decide⟩, by decide⟩, by decide⟩
    exact (hex_small (h2 _ h)).2.2.2 rfl
  refine ⟨_, _, E.raw alg i, i, hs, utf8Decode_utf8 _, ?_, hi, fileDigest_hexLength halg i⟩
  rw [univNewlines_of_noCR hnc]
  refine ⟨c!" ", [], c!"\n", by simp [inventoryFilename], ?_, fun c hc => hex_word hword (h2 c hc), by decide, ?_, by simp, Or.inr ⟨[], rfl⟩⟩
  · intro h
    rw [h] at h1
    have := (hexLength_cases halg).1
    simp at h1
    omega
  · intro c hc
    cases List.mem_singleton.mp hc
    exact ⟨by unfold Blank; decide, by decide⟩

end Ocfl
