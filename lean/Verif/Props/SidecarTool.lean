import Verif.Proofs.NewSidecar
import Verif.Proofs.BuildDirs
import Verif.Proofs.ObjPaths
import Verif.Props.ObjectValidation
import Verif.Props.Missing
import Verif.Props.Crash
import Verif.Props.CommandLine
import Verif.Props.HistoryLimits

/-!
# Property C83: the command that writes sidecars
-/

namespace Ocfl

open Spec FS Prog SidecarCli

/-- The algorithm of the command: that given with `--digest`, or SHA-512. -/
def toolAlg (digest : Option Str) : Str := digest.getD c!"sha512"

/-- The paths of the command, the current directory if none is given. -/
def toolPaths (paths : List Str) : List Str := if paths.length = 0 then [c!"."] else paths

namespace Spec

/-- A path given to the command names the directory `dir`: it is that of the directory or that of the inventory there. -/
def NamesDir (cwd : Path) (path : Str) (dir : Path) : Prop :=
  (path ≠ [] ∧ absComps cwd path = dir) ∨
    ∃ pre, path = pre ++ c!"inventory.json" ∧ (pre = [] ∨ ∃ p, pre = p ++ c!"/") ∧ absComps cwd pre = dir

end Spec

theorem split_tail {pre t : Str} (ht : '/' ∉ t) (hpre : pre = [] ∨ ∃ p, pre = p ++ c!"/") : (osPathSplit (pre ++ t)).2 = t := by
  have h : ((pre ++ t).reverse.takeWhile (· ≠ '/')).reverse = t := by
    rw [List.reverse_append, List.takeWhile_append_of_pos]
    · rcases hpre with rfl | ⟨p, rfl⟩
      · simp
      · simp
    · intro a ha
      simp only [List.mem_reverse] at ha
      simp only [decide_eq_true_eq]
      rintro rfl
      exact ht ha
  unfold osPathSplit
  dsimp only
  split
  · exact h
  · exact h

theorem inventory_safe : SafeName c!"inventory.json" := by decide

theorem join_slash {pre t : Str} (ht : t.head? ≠ some '/') (hpre : pre = [] ∨ ∃ p, pre = p ++ c!"/") : osPathJoin pre t = pre ++ t := by
  unfold osPathJoin
  split
  · simp at ht
  · rw [if_pos]
    rcases hpre with rfl | ⟨p, rfl⟩
    · exact Or.inl rfl
    · right
      simp [endsWith]

/-- The directory that the command looks at. -/
theorem sidecarDirectory_names {cwd : Path} {path : Str} {dir : Path} {s : FS} {i : Bytes} (hw : s.WF) (h : NamesDir cwd path dir)
    (hi : look s (dir ++ [inventoryFilename]) = some (.file i)) :
    ∃ d, sidecarDirectory cwd path s = some d ∧ absComps cwd d = dir ∧ look s dir = some .dir := by
  have hdir : look s dir = some .dir := look_prefix hw (List.prefix_append _ _) (by simp) hi
  rcases h with ⟨hne, rfl⟩ | ⟨pre, rfl, hpre, rfl⟩
  · refine ⟨path, ?_, rfl, hdir⟩
    unfold sidecarDirectory osIsdir
    rw [if_pos (by simp [hne, isdir, hdir])]
  · have hj : absComps cwd (pre ++ c!"inventory.json") = absComps cwd pre ++ [inventoryFilename] := by
      rw [← join_slash (by decide) hpre]
      exact absComps_osPathJoin cwd pre inventory_safe
    have ht := split_tail (t := c!"inventory.json") (by decide) hpre
    refine ⟨(osPathSplit (pre ++ c!"inventory.json")).1, ?_, ?_, hdir⟩
    · unfold sidecarDirectory osIsdir
      rw [if_neg (by rw [hj]; simp [isdir, hi]), if_pos (show _ = inventoryFilename from ht)]
    · have := (absComps_split cwd (pre ++ c!"inventory.json")).1
      rw [ht, hj, resolve_name _ inventory_safe] at this
      exact List.append_cancel_right this

theorem names_of_directory {cwd : Path} {path d : Str} {s : FS} (h : sidecarDirectory cwd path s = some d) :
    NamesDir cwd path (absComps cwd d) := by
  unfold sidecarDirectory at h
  split at h
  · rename_i hd
    cases h
    unfold osIsdir at hd
    simp only [ne_eq, decide_not, Bool.and_eq_true, Bool.not_eq_true', decide_eq_false_iff_not] at hd
    exact Or.inl ⟨hd.1, rfl⟩
  · split at h
    · rename_i ht
      cases h
      right
      have hsp := (absComps_split cwd path).1
      rw [ht, look_inventory] at hsp
      have key : ∃ pre, path = pre ++ c!"inventory.json" ∧ (pre = [] ∨ ∃ p, pre = p ++ c!"/") := by
        rcases osPathSplit_cases path with ⟨_, e⟩ | ⟨n, t, hn, _, hp, e⟩ | ⟨h, n, t, hn, _, _, _, hp, e⟩
        · rw [e] at ht
          exact ⟨[], ht, Or.inl rfl⟩
        · rw [e] at ht
          obtain ⟨k, rfl⟩ := Nat.exists_eq_succ_of_ne_zero (by omega : n ≠ 0)
          exact ⟨_, by rw [hp, show t = _ from ht]; rfl, Or.inr ⟨List.replicate k '/', List.replicate_succ'⟩⟩
        · rw [e] at ht
          obtain ⟨k, rfl⟩ := Nat.exists_eq_succ_of_ne_zero (by omega : n ≠ 0)
          refine ⟨_, by rw [hp, show t = _ from ht]; rfl, Or.inr ⟨h ++ List.replicate k '/', ?_⟩⟩
          rw [List.replicate_succ', List.append_assoc]
      obtain ⟨pre, hp, hpre⟩ := key
      refine ⟨pre, hp, hpre, ?_⟩
      have hj : absComps cwd path = absComps cwd pre ++ [inventoryFilename] := by
        rw [hp, ← join_slash (by decide) hpre]
        exact absComps_osPathJoin cwd pre inventory_safe
      rw [hj] at hsp
      exact (List.append_cancel_right hsp).symm
    · cases h

/-- One path: it is left out, nothing is written because of an error, or the sidecar is written. -/
theorem run_sidecarPath {E : Env} {digest : Option Str} {path : Str} {s : FS} :
    (run (sidecarPath E digest path) s = (s, .ok ()) ∧ ∀ d, sidecarDirectory E.cwd path s = some d →
      ∀ i, look s (absComps E.cwd d ++ [inventoryFilename]) ≠ some (.file i)) ∨
    (∃ e, run (sidecarPath E digest path) s = (s, .error e)) ∨
    ∃ d i x, sidecarDirectory E.cwd path s = some d ∧ look s (absComps E.cwd d) = some .dir ∧
      look s (absComps E.cwd d ++ [inventoryFilename]) = some (.file i) ∧ fileDigest E.raw (toolAlg digest) i = some x ∧
      look s (absComps E.cwd d ++ [sidecarName (toolAlg digest)]) ≠ some .dir ∧
      run (sidecarPath E digest path) s = (Dict.set s (absComps E.cwd d ++ [sidecarName (toolAlg digest)]) (.file (sidecarLine x)), .ok ()) := by
  unfold sidecarPath
  rw [run_get]
  cases hd : sidecarDirectory E.cwd path s with
  | none => exact Or.inl ⟨rfl, fun d h => by cases h⟩
  | some d =>
    have hjoin : absComps E.cwd (osPathJoin d inventoryFilename) = absComps E.cwd d ++ [inventoryFilename] :=
      absComps_osPathJoin E.cwd d inventory_safe
    have hjne : osPathJoin d inventoryFilename ≠ [] := by
      unfold osPathJoin
      split
      · rename_i h; cases h
      · split <;> simp [inventoryFilename]
    unfold createSidecar
    cases hp : prepareSidecar E digest d s with
    | error e =>
      refine Or.inr (Or.inl ⟨e, ?_⟩)
      dsimp only
      rw [run_bind_error (run_bind_error (by rw [run_look, hp]))]
    | ok r =>
      have hp0 := hp
      unfold prepareSidecar at hp
      cases r with
      | none =>
        refine Or.inl ⟨?_, ?_⟩
        · have h1 : run (Prog.look (prepareSidecar E digest d)) s = (s, .ok none) := by
            rw [run_look, hp0]
          dsimp only
          rw [run_bind_ok (run_bind_ok h1)]
          rfl
        · rintro d' ⟨⟩ i hi
          unfold osIsfile at hp
          rw [hjoin, hi] at hp
          simp only [hjne, ne_eq, not_false_eq_true, decide_true] at hp
          split at hp
          · rename_i h; cases h
          · repeat' split at hp
            all_goals cases hp
      | some r =>
        have h1 : run (Prog.look (prepareSidecar E digest d)) s = (s, .ok (some r)) := by
          rw [run_look, hp0]
        have hr : r = (absComps E.cwd d, toolAlg digest) ∧ look s (absComps E.cwd d) = some .dir := by
          cases hf : osIsfile E.cwd (osPathJoin d inventoryFilename) s with
          | false => rw [hf, if_pos rfl] at hp; cases hp
          | true =>
            rw [hf, if_neg (by simp)] at hp
            split at hp
            · cases hp
            · rename_i base hb
              obtain ⟨rfl, hb2⟩ := openObj_ok hb
              refine ⟨?_, hb2⟩
              unfold toolAlg
              split at hp
              · cases hp; rfl
              · split at hp
                all_goals first | (cases hp; rfl) | cases hp
        obtain ⟨rfl, hb⟩ := hr
        dsimp only
        rcases run_sidecar_cases (E := E) (alg := toolAlg digest) hb with ⟨e, h2⟩ | ⟨i, x, hi, hx, hs, h2⟩
        · refine Or.inr (Or.inl ⟨e, ?_⟩)
          rw [run_bind_error]
          rw [run_bind_ok h1]
          exact run_bind_error h2
        · refine Or.inr (Or.inr ⟨d, i, x, rfl, hb, hi, hx, hs, ?_⟩)
          rw [run_bind_ok (show run _ s = (_, .ok true) by rw [run_bind_ok h1]; exact (run_bind_ok h2).trans (run_ret _ _))]
          rfl

/-- The sidecar is written if the inventory is there and nothing is in the way. -/
theorem run_sidecarPath_ok {E : Env} {digest : Option Str} {path : Str} {s : FS} {d : Str} {i : Bytes} {x : Str}
    (hd : sidecarDirectory E.cwd path s = some d) (hb : look s (absComps E.cwd d) = some .dir)
    (hi : look s (absComps E.cwd d ++ [inventoryFilename]) = some (.file i)) (hx : fileDigest E.raw (toolAlg digest) i = some x)
    (hs : look s (absComps E.cwd d ++ [sidecarName (toolAlg digest)]) ≠ some .dir)
    (hp : digest = none → parseInventory E (absComps E.cwd d) s = .error .objectException ∨
      ∃ inv, parseInventory E (absComps E.cwd d) s = .ok inv) :
    run (sidecarPath E digest path) s =
      (Dict.set s (absComps E.cwd d ++ [sidecarName (toolAlg digest)]) (.file (sidecarLine x)), .ok ()) := by
  have hjoin : absComps E.cwd (osPathJoin d inventoryFilename) = absComps E.cwd d ++ [inventoryFilename] :=
    absComps_osPathJoin E.cwd d inventory_safe
  have hjne : osPathJoin d inventoryFilename ≠ [] := by
    unfold osPathJoin
    split
    · rename_i h; cases h
    · split <;> simp [inventoryFilename]
  have hprep : prepareSidecar E digest d s = .ok (some (absComps E.cwd d, toolAlg digest)) := by
    unfold prepareSidecar
    rw [if_neg (by unfold osIsfile; rw [hjoin, hi]; simp [hjne]), openObj_dir hb]
    dsimp only
    cases digest with
    | some a => rfl
    | none =>
      dsimp only
      rcases hp rfl with h | ⟨inv, h⟩
      · rw [h]; rfl
      · rw [h]; rfl
  unfold sidecarPath
  rw [run_get, hd]
  dsimp only
  unfold createSidecar
  have h1 : run (Prog.look (prepareSidecar E digest d)) s = (s, .ok (some (absComps E.cwd d, toolAlg digest))) := by
    rw [run_look, hprep]
  rw [run_bind_ok (show run _ s = (_, .ok true) by
    rw [run_bind_ok h1]
    exact (run_bind_ok (run_sidecar hb hi hx hs)).trans (run_ret _ _))]
  rfl

theorem inventory_not_side (alg : Str) : inventoryFilename ≠ sidecarName alg := by
  intro e
  have := congrArg List.length e
  simp [inventoryFilename, sidecarName] at this

/-- What the loop of the command does. -/
theorem run_sidecarLoop {E : Env} {digest : Option Str} : ∀ (l : List Str) {s s' : FS} {r : Py Unit}, s.WF →
    run (forEach (sidecarPath E digest) l) s = (s', r) →
    s'.WF ∧
    (∀ q, look s' q ≠ look s q → ∃ path ∈ l, ∃ dir i x, NamesDir E.cwd path dir ∧ q = dir ++ [sidecarName (toolAlg digest)] ∧
      look s (dir ++ [inventoryFilename]) = some (.file i) ∧ fileDigest E.raw (toolAlg digest) i = some x ∧
      look s' q = some (.file (sidecarLine x))) ∧
    (r = .ok () → ∀ path ∈ l, ∀ dir i, NamesDir E.cwd path dir → look s (dir ++ [inventoryFilename]) = some (.file i) →
      ∃ x, fileDigest E.raw (toolAlg digest) i = some x ∧
        look s' (dir ++ [sidecarName (toolAlg digest)]) = some (.file (sidecarLine x)))
  | [], s, s', r, hw, h => by
    cases h
    exact ⟨hw, fun q hq => absurd rfl hq, fun _ path hp => by cases hp⟩
  | path :: l, s, s', r, hw, h => by
    unfold forEach at h
    rcases run_sidecarPath (E := E) (digest := digest) (path := path) (s := s) with ⟨h1, hno⟩ | ⟨e, h1⟩ | ⟨d, i, x, hd, hb, hi, hx, hs, h1⟩
    · rw [run_bind_ok h1] at h
      obtain ⟨k1, k2, k3⟩ := run_sidecarLoop l hw h
      refine ⟨k1, fun q hq => ?_, fun hr p hp dir j hnm hj => ?_⟩
      · obtain ⟨p, hp, rest⟩ := k2 q hq
        exact ⟨p, List.mem_cons_of_mem _ hp, rest⟩
      · rcases List.mem_cons.mp hp with rfl | hp
        · obtain ⟨d, hd, rfl, _⟩ := sidecarDirectory_names hw hnm hj
          exact absurd hj (hno d hd j)
        · exact k3 hr p hp dir j hnm hj
    · rw [run_bind_error h1] at h
      cases h
      exact ⟨hw, fun q hq => absurd rfl hq, fun hr => by cases hr⟩
    · rw [run_bind_ok h1] at h
      have hl : ∀ q, look (Dict.set s (absComps E.cwd d ++ [sidecarName (toolAlg digest)]) (.file (sidecarLine x))) q =
          if q = absComps E.cwd d ++ [sidecarName (toolAlg digest)] then some (.file (sidecarLine x)) else look s q :=
        fun q => look_set (by simp) q
      have hinv : ∀ dir : Path, look (Dict.set s (absComps E.cwd d ++ [sidecarName (toolAlg digest)]) (.file (sidecarLine x)))
          (dir ++ [inventoryFilename]) = look s (dir ++ [inventoryFilename]) := by
        intro dir
        rw [hl, if_neg]
        intro e
        exact inventory_not_side _ (List.cons.inj (List.append_inj' e rfl).2).1
      have hw1 : FS.WF (Dict.set s (absComps E.cwd d ++ [sidecarName (toolAlg digest)]) (.file (sidecarLine x))) := by
        refine WF_set hw (by simp) (by rw [List.dropLast_concat]; exact hb) ?_ (fun hd => absurd hd hs)
        intro w hwm
        rcases List.mem_append.mp hwm with hm | hm
        · exact look_names hw hb w hm
        · rw [List.mem_singleton.mp hm]
          exact sidecar_safe (fileDigest_noSlash hx)
      generalize hs1 : (Dict.set s (absComps E.cwd d ++ [sidecarName (toolAlg digest)]) (.file (sidecarLine x)) : FS) = s1 at *
      obtain ⟨k1, k2, k3⟩ := run_sidecarLoop l hw1 h
      have hnm := names_of_directory hd
      have hside : ∀ q, look s' q ≠ look s q → ∃ p ∈ path :: l, ∃ dir i x, NamesDir E.cwd p dir ∧
          q = dir ++ [sidecarName (toolAlg digest)] ∧ look s (dir ++ [inventoryFilename]) = some (.file i) ∧
          fileDigest E.raw (toolAlg digest) i = some x ∧ look s' q = some (.file (sidecarLine x)) := by
        intro q hq
        by_cases hq1 : look s' q = look s1 q
        · by_cases hqe : q = absComps E.cwd d ++ [sidecarName (toolAlg digest)]
          · exact ⟨path, List.mem_cons_self, _, i, x, hnm, hqe, hi, hx, by rw [hq1, hl, if_pos hqe]⟩
          · exact absurd (hq1.trans (by rw [hl, if_neg hqe])) hq
        · obtain ⟨p, hp, dir, j, y, k4, k5, k6, k7⟩ := k2 q hq1
          exact ⟨p, List.mem_cons_of_mem _ hp, dir, j, y, k4, k5, by rw [← hinv]; exact k6, k7⟩
      refine ⟨k1, hside, fun hr p hp dir j hnm' hj => ?_⟩
      rcases List.mem_cons.mp hp with rfl | hp
      · obtain ⟨d', hd', rfl, _⟩ := sidecarDirectory_names hw hnm' hj
        rw [hd] at hd'
        cases hd'
        rw [hi] at hj
        cases hj
        by_cases hq1 : look s' (absComps E.cwd d ++ [sidecarName (toolAlg digest)]) =
            look s1 (absComps E.cwd d ++ [sidecarName (toolAlg digest)])
        · exact ⟨x, hx, by rw [hq1, hl, if_pos rfl]⟩
        · obtain ⟨p', _, dir, j', y, _, k5, k6, k7, k8⟩ := k2 _ hq1
          have : absComps E.cwd d = dir := List.append_cancel_right k5
          subst this
          rw [hinv, hi] at k6
          cases k6
          exact ⟨y, k7, k8⟩
      · exact k3 hr p hp dir j hnm' (by rw [hinv]; exact hj)

/-- **C83** (what is written). Whatever paths are given and however it ends, the command changes nothing but the files
`inventory.json.<algorithm>` beside the inventories in the directories named, and those it writes hold the digest of that inventory. -/
theorem C83_writes {E : Env} {digest : Option Str} {paths : List Str} {s s' : FS} {r : Py Unit} (hw : s.WF)
    (h : run (sidecarMain E digest paths) s = (s', r)) :
    s'.WF ∧ ∀ q, look s' q ≠ look s q → ∃ path ∈ toolPaths paths, ∃ dir i x, NamesDir E.cwd path dir ∧
      q = dir ++ [c!"inventory.json." ++ toolAlg digest] ∧ look s (dir ++ [c!"inventory.json"]) = some (.file i) ∧
      fileDigest E.raw (toolAlg digest) i = some x ∧ look s' q = some (.file (utf8 (x ++ c!" inventory.json\n"))) := by
  obtain ⟨k1, k2, _⟩ := run_sidecarLoop _ hw h
  refine ⟨k1, fun q hq => ?_⟩
  obtain ⟨p, hp, dir, i, x, h1, h2, h3, h4, h5⟩ := k2 q hq
  refine ⟨p, hp, dir, i, x, h1, h2, h3, h4, h5.trans ?_⟩
  simp [sidecarLine, inventoryFilename]

/-- **C83** (the sidecars are right). If the command completes, the sidecar for the algorithm used is right in each directory named
that has an inventory. -/
theorem C83_right {E : Env} (hE : Libraries E) {digest : Option Str} {paths : List Str} {s s' : FS} (hw : s.WF)
    (h : run (sidecarMain E digest paths) s = (s', .ok ())) {n : Nat} (halg : hexLength (toolAlg digest) = some n)
    {path : Str} (hp : path ∈ toolPaths paths) {dir : Path} (hd : NamesDir E.cwd path dir) {i : Bytes}
    (hi : look s (dir ++ [c!"inventory.json"]) = some (.file i)) :
    look s' (dir ++ [c!"inventory.json"]) = some (.file i) ∧ SidecarGood E s' dir (toolAlg digest) := by
  obtain ⟨_, k2, k3⟩ := run_sidecarLoop _ hw h
  have hi' : look s' (dir ++ [inventoryFilename]) = some (.file i) := by
    by_contra hne
    obtain ⟨_, _, dir', _, _, _, e, _⟩ := k2 (dir ++ [inventoryFilename]) (fun e => hne (e.trans hi))
    exact inventory_not_side _ (List.cons.inj (List.append_inj' e rfl).2).1
  obtain ⟨x, hx, hs⟩ := k3 rfl path hp dir i hd hi
  exact ⟨hi', sidecarGood_line hE.hash hE.word halg hi' hx hs⟩

/-- A valid inventory can be read, or its version numbers cannot. -/
theorem parse_total {E : Env} (hlib : E.lib.Lawful) {base : Path} {s : FS} {j : Json} {alg cd : Str} {m : DigestMap}
    {vs : List (Str × Json)} {states : Str → List (Str × List Str)} {style : Option Nat} {n : Nat}
    (hj : StoredJson E.lib s (base ++ [inventoryFilename]) j)
    (hr : RulesWith false none j (.str alg) cd m vs states style n) :
    parseInventory E base s = .error .objectException ∨ ∃ inv, parseInventory E base s = .ok inv := by
  obtain ⟨b, t, hl, ht, hjt⟩ := hj
  have hwf := hlib.wf _ j hjt
  have hread : readText s (FS.resolve base inventoryFilename) = .ok (univNewlines t) := by
    rw [look_inventory]
    unfold readText FS.read
    rw [hl]
    dsimp only
    rw [ht]
  obtain ⟨res, es, hv⟩ := (C37 (isWord := E.isWord) (ds := c!"1.1") hwf).mpr ⟨_, cd, m, vs, states, style, n, hr⟩
  obtain ⟨hg, _⟩ := good_of_rules hwf hr
  obtain ⟨i, _, d, hd, _⟩ := hr.id
  subst hd
  unfold parseInventory
  rw [hread]
  dsimp only
  rw [hjt]
  dsimp only
  rw [hv]
  dsimp only
  rw [accepted_alg hwf hv hg.algorithm]
  simp only [Validator.algStr]
  cases hn : (Inv.ofJson (.obj d)).normalizeDigests alg with
  | mk inv r =>
    cases r with
    | ok u => exact Or.inr ⟨inv, rfl⟩
    | error e =>
      left
      unfold Inv.normalizeDigests at hn
      dsimp only at hn
      split at hn
      · rename_i he
        cases hn
        rw [(versionDirectories_error he).1]
      · cases hn

theorem alg_digest {E : Env} {alg : Str} (h : alg = c!"sha512" ∨ alg = c!"sha256") (i : Bytes) :
    ∃ n, hexLength alg = some n ∧ fileDigest E.raw alg i = some (E.raw alg i) := by
  rcases h with rfl | rfl
  · exact ⟨128, rfl, fileDigest_hexLength (n := 128) rfl i⟩
  · exact ⟨64, rfl, fileDigest_hexLength (n := 64) rfl i⟩

/-- The command run on the directory of an inventory that obeys the rules. -/
theorem run_sidecarMain {E : Env} (hlib : E.lib.Lawful) {digest : Option Str} {path : Str} {s : FS} (hw : s.WF) {dir : Path}
    (hnm : NamesDir E.cwd path dir) {j : Json} {alg cd : Str} {m : DigestMap} {vs : List (Str × Json)}
    {states : Str → List (Str × List Str)} {style : Option Nat} {n : Nat}
    (hj : StoredJson E.lib s (dir ++ [inventoryFilename]) j) (hr : RulesWith false none j (.str alg) cd m vs states style n)
    (halg : toolAlg digest = c!"sha512" ∨ toolAlg digest = c!"sha256")
    (hs : look s (dir ++ [sidecarName (toolAlg digest)]) ≠ some .dir) :
    ∃ s', run (sidecarMain E digest [path]) s = (s', .ok ()) := by
  obtain ⟨i, _, hi, _⟩ := id hj
  obtain ⟨d, hd, rfl, hb⟩ := sidecarDirectory_names hw hnm hi
  obtain ⟨k, _, hx⟩ := alg_digest (E := E) halg i
  obtain ⟨s1, h1⟩ : ∃ s1, run (sidecarPath E digest path) s = (s1, .ok ()) :=
    ⟨_, run_sidecarPath_ok hd hb hi hx hs (fun _ => parse_total hlib hj hr)⟩
  refine ⟨s1, ?_⟩
  unfold sidecarMain
  rw [if_neg (by simp)]
  exact (run_bind_ok h1).trans rfl

/-- **C83** (part). Let the object at `objdir` be valid but for its sidecar: there is a file system `s0` in which it is valid and which is
the same below the object but for the sidecar, which may be missing or wrong here. With the algorithm of the
inventory as `--digest`, or without if that is SHA-512, the command completes, changes nothing but the sidecar, and the object is valid
afterwards. In particular a valid object stays valid. Missing: other algorithms without `--digest`, see `C83_violated`. -/
theorem C83_partial {E : Env} (hE : Libraries E) {objdir path : Str} {digest : Option Str} {s0 s : FS} (hw0 : s0.WF) (hw : s.WF)
    {es : List Entry} (hv : Validator.validateObject E { checkDigests := true, lax := false } 0 s0 objdir = .ok (true, es))
    {j : Json} {alg : Str} (hj : StoredJson E.lib s0 (absComps E.cwd objdir ++ [c!"inventory.json"]) j) (ha : InventoryAlg j alg)
    (hn : ∀ q, q ≠ [c!"inventory.json." ++ alg] → look s (absComps E.cwd objdir ++ q) = look s0 (absComps E.cwd objdir ++ q))
    (hside : look s (absComps E.cwd objdir ++ [c!"inventory.json." ++ alg]) ≠ some .dir)
    (hdig : digest = some alg ∨ digest = none ∧ alg = c!"sha512") (hp : NamesDir E.cwd path (absComps E.cwd objdir)) :
    ∃ s', run (sidecarMain E digest [path]) s = (s', .ok ()) ∧
      (∀ q, q ≠ absComps E.cwd objdir ++ [c!"inventory.json." ++ alg] → look s' q = look s q) ∧
      ∃ es', Validator.validateObject E { checkDigests := true, lax := false } 0 s' objdir = .ok (true, es') := by
  have htool : toolAlg digest = alg := by
    rcases hdig with rfl | ⟨rfl, rfl⟩
    · rfl
    · rfl
  obtain ⟨hdir0, spec, j1, alg1, cd, m, vs, states, style, n, hr⟩ := (C73 hE rfl hw0).mp ⟨es, hv⟩
  have hjj : j1 = j := by
    obtain ⟨b, t, h1, h2, h3⟩ := hj
    obtain ⟨b', t', h1', h2', h3'⟩ := hr.inventory
    rw [h1] at h1'
    cases h1'
    rw [h2] at h2'
    cases h2'
    rw [h3] at h3'
    cases h3'
    rfl
  subst hjj
  have hwf : j1.WF := by
    obtain ⟨b, t, _, _, h3⟩ := hj
    exact hE.json.wf _ _ h3
  have halg : alg1 = alg := by
    have h1 := field_of_member hwf ha
    have h2 := field_of_member hwf hr.rules.digestAlgorithm.1
    rw [h1] at h2
    cases h2
    rfl
  subst halg
  have hok : alg1 = c!"sha512" ∨ alg1 = c!"sha256" := by
    have := hr.rules.digestAlgorithm.2
    simpa [AlgRule] using this
  have hne : [inventoryFilename] ≠ [c!"inventory.json." ++ alg1] := fun e => inventory_not_side _ (List.cons.inj e).1
  have hjs : StoredJson E.lib s (absComps E.cwd objdir ++ [inventoryFilename]) j1 := by
    obtain ⟨b, t, h1, h2⟩ := hj
    exact ⟨b, t, (hn _ hne).trans h1, h2⟩
  obtain ⟨s', hrun⟩ := run_sidecarMain hE.json hw hp hjs hr.rules (by rw [htool]; exact hok) (by rw [htool]; exact hside)
  obtain ⟨hw', hch⟩ := C83_writes hw hrun
  have hkeep : ∀ q, q ≠ absComps E.cwd objdir ++ [c!"inventory.json." ++ alg1] → look s' q = look s q := by
    intro q hq
    by_contra hne'
    obtain ⟨p, hpm, dir, i, x, h1, h2, h3, _⟩ := hch q hne'
    rw [show toolPaths [path] = [path] from rfl, List.mem_singleton] at hpm
    subst hpm
    obtain ⟨d1, e1, e2, _⟩ := sidecarDirectory_names hw h1 h3
    obtain ⟨i', _, hi', _⟩ := hjs
    obtain ⟨d2, e3, e4, _⟩ := sidecarDirectory_names hw hp hi'
    rw [e1] at e3
    cases e3
    rw [htool, ← e2, e4] at h2
    exact hq h2
  refine ⟨s', hrun, hkeep, ?_⟩
  obtain ⟨k, hk, _⟩ := alg_digest (E := E) hok []
  obtain ⟨i, _, hi, _⟩ := id hjs
  obtain ⟨_, hgood⟩ := C83_right hE hw hrun (by rw [htool]; exact hk) (path := path) (by simp [toolPaths]) hp hi
  rw [htool] at hgood
  refine (C73 hE rfl hw').mpr ⟨?_, spec, j1, alg1, cd, m, vs, states, style, n, ObjectRules.newSidecar hr ?_ ?_ hgood⟩
  · rw [hkeep _ (by simp)]
    have := hn [] (by simp)
    rw [List.append_nil] at this
    rw [this]
    exact hdir0
  · intro q hq
    rw [hkeep _ (fun e => hq (List.append_cancel_left e)), hn q hq]
  · obtain ⟨b, _, _, _, hb, _⟩ := hr.sidecar.2 rfl
    rw [hb]
    simp

/-- **C83** fails for objects with SHA-256: without `--digest` the command writes a sidecar for SHA-512, though the
inventory names SHA-256. Every valid object with that algorithm is invalid afterwards. -/
theorem C83_spoils {E : Env} (hE : Libraries E) {objdir path : Str} {s : FS} (hw : s.WF) {es : List Entry}
    (hv : Validator.validateObject E { checkDigests := true, lax := false } 0 s objdir = .ok (true, es))
    {j : Json} (hj : StoredJson E.lib s (absComps E.cwd objdir ++ [c!"inventory.json"]) j) (ha : InventoryAlg j c!"sha256")
    (hp : NamesDir E.cwd path (absComps E.cwd objdir)) :
    ∃ s', run (sidecarMain E none [path]) s = (s', .ok ()) ∧
      ¬ ∃ es', Validator.validateObject E { checkDigests := true, lax := false } 0 s' objdir = .ok (true, es') := by
  obtain ⟨hdir0, spec, j1, alg1, cd, m, vs, states, style, n, hr⟩ := (C73 hE rfl hw).mp ⟨es, hv⟩
  have hnd : look s (absComps E.cwd objdir ++ [sidecarName c!"sha512"]) ≠ some .dir := by
    intro hl
    rcases hr.dirs _ hl with h | h | h
    · obtain ⟨k, _, _, e⟩ := (hr.rules.names.2.2.2 _).mp h
      have h1 := congrArg List.head? e
      rw [styleName_head] at h1
      exact absurd h1 (by decide)
    · exact absurd h (by decide)
    · exact absurd h (by decide)
  obtain ⟨s', hrun⟩ := run_sidecarMain hE.json (digest := none) hw hp hr.inventory hr.rules (Or.inl rfl) hnd
  obtain ⟨hw', hch⟩ := C83_writes hw hrun
  refine ⟨s', hrun, ?_⟩
  rintro ⟨es', hv'⟩
  obtain ⟨_, spec', j', alg', cd', m', vs', states', style', n', hr'⟩ := (C73 hE rfl hw').mp ⟨es', hv'⟩
  obtain ⟨i, t, hi, ht, hjt⟩ := id hj
  obtain ⟨hi', b, _, _, _, hb, _⟩ := C83_right hE hw hrun (n := 128) rfl (path := path) (by simp [toolPaths]) hp hi
  have halg : alg' = c!"sha256" := by
    obtain ⟨i2, t2, h1, h2, h3⟩ := hr'.inventory
    rw [hi'] at h1
    cases h1
    rw [ht] at h2
    cases h2
    rw [hjt] at h3
    cases h3
    have hwf := hE.json.wf _ _ hjt
    have h1 := field_of_member hwf ha
    have h2 := field_of_member hwf hr'.rules.digestAlgorithm.1
    rw [h1] at h2
    cases h2
    rfl
  subst halg
  rcases hr'.files _ b hb with h | h | h
  · have := congrArg List.head? h
    simp at this
  · exact absurd h (by decide)
  · exact absurd h (by decide)

/-! ## Examples -/

/-- The object of the examples without its sidecar. -/
def demoNoSide : FS := (exec (.remove [c!"w", c!"obj", c!"inventory.json.sha256"]) demoMade).1

theorem demoNoSide_wf : demoNoSide.WF := exec_wf demoMade_wf (by decide)

/-- Without the sidecar it is not valid. With the command it is again; `inventory.json` can be named itself. -/
example : objectVerdict demoEnv c!"obj" demoNoSide = some false ∧
    objectVerdict demoEnv c!"obj" (run (sidecarMain demoEnv (some c!"sha256") [c!"obj"]) demoNoSide).1 = some true ∧
    objectVerdict demoEnv c!"obj" (run (sidecarMain demoEnv (some c!"sha256") [c!"obj/inventory.json"]) demoNoSide).1 = some true := by
  refine ⟨?_, ?_, ?_⟩ <;> decide +kernel

/-- **C83** in general fails: a valid object that is invalid after the command. -/
theorem C83_violated : objectVerdict demoEnv c!"obj" demoMade = some true ∧
    (run (sidecarMain demoEnv none [c!"obj"]) demoMade).2 = .ok () ∧
    objectVerdict demoEnv c!"obj" (run (sidecarMain demoEnv none [c!"obj"]) demoMade).1 = some false ∧
    look (run (sidecarMain demoEnv none [c!"obj"]) demoNoSide).1 [c!"w", c!"obj", c!"inventory.json.sha256"] = none := by
  refine ⟨?_, ?_, ?_, ?_⟩ <;> decide +kernel

/-- The hypotheses of `C83_partial` with the sidecar missing. -/
example : ∃ s', run (sidecarMain demoEnv (some c!"sha256") [c!"obj/inventory.json"]) demoNoSide = (s', .ok ()) ∧
    ∃ es', Validator.validateObject demoEnv { checkDigests := true, lax := false } 0 s' c!"obj" = .ok (true, es') := by
  obtain ⟨j, h1, h2⟩ := storedPlain_spec (alg := c!"sha256") (s := demoMade) (by decide +kernel)
  obtain ⟨es, h3⟩ := accepted_object (E := demoEnv) (cfg := { checkDigests := true, lax := false }) (s := demoMade) (path := c!"obj") (by decide +kernel)
  have hbase : absComps demoEnv.cwd c!"obj" = [c!"w", c!"obj"] := by decide
  have herase : demoNoSide = Dict.erase demoMade [c!"w", c!"obj", c!"inventory.json.sha256"] := by
    obtain ⟨b, hb⟩ : ∃ b, look demoMade [c!"w", c!"obj", c!"inventory.json.sha256"] = some (.file b) := by
      cases h : look demoMade [c!"w", c!"obj", c!"inventory.json.sha256"] with
      | none => exact absurd h (by decide +kernel)
      | some nd =>
        cases nd with
        | dir => exact absurd h (by decide +kernel)
        | file b => exact ⟨b, rfl⟩
    unfold demoNoSide exec
    dsimp only
    rw [hb]
  have hkeep : ∀ q, q ≠ [c!"inventory.json.sha256"] → look demoNoSide ([c!"w", c!"obj"] ++ q) = look demoMade ([c!"w", c!"obj"] ++ q) := by
    intro q hq
    rw [herase, look_erase demoMade_wf (by simp), if_neg]
    intro e
    exact hq (List.append_cancel_left (as := [c!"w", c!"obj"]) e)
  obtain ⟨s', k1, _, k2⟩ := C83_partial demoLibraries (path := c!"obj/inventory.json") (digest := some c!"sha256") (s := demoNoSide) demoMade_wf demoNoSide_wf h3
    (by rw [hbase]; exact h1) (plainStart_spec h2).2.2.2 (by rw [hbase]; exact hkeep) (by decide +kernel) (Or.inl rfl)
    (Or.inr ⟨c!"obj/", rfl, Or.inr ⟨c!"obj", rfl⟩, by decide⟩)
  exact ⟨s', k1, k2⟩

/-- And those of `C83_spoils`. -/
example : ∃ s', run (sidecarMain demoEnv none [c!"obj"]) demoMade = (s', .ok ()) ∧
    ¬ ∃ es', Validator.validateObject demoEnv { checkDigests := true, lax := false } 0 s' c!"obj" = .ok (true, es') := by
  obtain ⟨j, h1, h2⟩ := storedPlain_spec (alg := c!"sha256") (s := demoMade) (by decide +kernel)
  obtain ⟨es, h3⟩ := accepted_object (E := demoEnv) (cfg := { checkDigests := true, lax := false }) (s := demoMade) (path := c!"obj") (by decide +kernel)
  have hbase : absComps demoEnv.cwd c!"obj" = [c!"w", c!"obj"] := by decide
  exact C83_spoils demoLibraries demoMade_wf h3 (by rw [hbase]; exact h1) (plainStart_spec h2).2.2.2 (Or.inl ⟨by decide, rfl⟩)

end Ocfl
