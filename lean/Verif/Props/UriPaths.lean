import Verif.Proofs.NewVersion
import Verif.Proofs.Layout

/-!
# C63: content paths with the `uri` normalisation
-/

namespace Ocfl
open Spec

namespace NV

theorem urlquote_cons (c : Char) (p : Str) :
    urlquote (c :: p) = (if isUnreserved c || c = '/' then [c] else (String.utf8EncodeChar c).flatMap pctUpper) ++ urlquote p := by
  unfold urlquote quoteWith
  rw [List.flatMap_cons]

theorem unquote_urlquote (p : Str) : unquoteToBytes (urlquote p) = utf8 p :=
  unquote_encoded (fun c => isUnreserved c || c = '/') pctUpper unquote_pctsUpper (by decide) p

/-- The name made from a relative path. -/
theorem mapped_uri {E : NVEnv} {nv : NV} (hn : nv.norm = some c!"uri") {p : Str} (hp : ¬ IsAbs p) {name : Str}
    (h : nv.mapped E p = .ok name) :
    unquoteToBytes name = utf8 p ∧ name.head? ≠ some '.' ∧ name.head? ≠ some '/' := by
  unfold mapped at h
  rw [if_pos hn] at h
  cases p with
  | nil => simp [urlquote, quoteWith] at h
  | cons c p =>
    have hc : c ≠ '/' := by rintro rfl; exact hp ⟨p, rfl⟩
    have hu := unquote_urlquote (c :: p)
    split at h
    · cases h
    · rename_i rest hq
      simp only [Except.ok.injEq] at h
      subst h
      refine ⟨?_, by simp, by simp⟩
      rw [hq, unquote_char (by decide)] at hu
      rw [← hu]
      have := unquote_pctUpper 46 rest
      exact this
    · rename_i q h1 h2
      simp only [Except.ok.injEq] at h
      subst h
      refine ⟨hu, ?_, ?_⟩
      · intro e
        match hq : urlquote (c :: p), e with
        | x :: xs, e =>
          simp at e; subst e
          exact h2 xs hq
      · rw [urlquote_cons]
        split
        · intro e; simp at e; exact hc e
        · intro e
          have : (String.utf8EncodeChar c) ≠ [] := by
            intro e0
            have := congrArg List.length e0
            rw [String.length_utf8EncodeChar] at this
            have := Char.utf8Size_pos c
            simp at *
          match hb : String.utf8EncodeChar c, this with
          | b :: bs, _ =>
            rw [hb, List.flatMap_cons] at e
            simp [pctUpper] at e

end NV

/-- **C63** With the `uri` normalisation the content path for a relative source path is a name in the
content directory that does not begin with a period and from which percent-decoding gives the source
path back; no suffix is added, as long as no content path for the same source path is in use. -/
theorem C63 (E : NVEnv) (nv : NV) (head p cp : Str) (hn : nv.norm = some c!"uri") (hh : PlainName head)
    (hcd : PlainName nv.inv.contentDirectoryToUse) (hp : ¬ IsAbs p) (h : nv.mapFilepath E head p = .ok cp)
    (hused : ∀ name, head ++ '/' :: nv.inv.contentDirectoryToUse ++ '/' :: name ∈ nv.inv.contentPaths →
      unquoteToBytes name ≠ utf8 p) :
    ∃ name, cp = head ++ '/' :: nv.inv.contentDirectoryToUse ++ '/' :: name ∧ unquoteToBytes name = utf8 p ∧
      name.head? ≠ some '.' := by
  rw [NV.mapFilepath_eq] at h
  split at h
  · cases h
  · rename_i name hm
    obtain ⟨h1, h2, h3⟩ := NV.mapped_uri hn hp hm
    have hv : osPathJoin (osPathJoin head nv.inv.contentDirectoryToUse) name =
        head ++ '/' :: nv.inv.contentDirectoryToUse ++ '/' :: name := by
      have := osPathJoin_joinWith (ws := [head]) (b := nv.inv.contentDirectoryToUse)
        (by intro w hw; simp at hw; subst hw; exact ⟨hh.1, hh.2⟩) hcd.2
      simp only [joinWith, List.singleton_append] at this
      rw [this, osPathJoin_of (by simp) _ h3]
      have e : head ++ '/' :: nv.inv.contentDirectoryToUse = (head ++ ['/']) ++ nv.inv.contentDirectoryToUse := by simp
      rw [e, endsWith_slash_append hcd.1]
      exact endsWith_slash_of_not_mem hcd.2
    simp only [hv] at h
    have hfree : head ++ '/' :: nv.inv.contentDirectoryToUse ++ '/' :: name ∉ nv.inv.contentPaths :=
      fun hm => hused name hm h1
    have : makeUnusedFilepath (head ++ '/' :: nv.inv.contentDirectoryToUse ++ '/' :: name) nv.inv.contentPaths =
        some (head ++ '/' :: nv.inv.contentDirectoryToUse ++ '/' :: name) := by
      simp only [makeUnusedFilepath, unusedLoop, hfree, if_false]
    rw [this] at h
    simp only [Except.ok.injEq] at h
    exact ⟨name, h.symm, h1, h2⟩

/-- **C63**, whole version: adding distinct relative source paths to a version whose content directory
is empty queues every stored file under a name that decodes to its source path, so that no two source
paths share a content path and none is renamed. -/
theorem C63_version (E : NVEnv) (srcs : List Str) (nv : NV) (head : Str) (hn : nv.norm = some c!"uri")
    (hhead : nv.inv.head = some head) (hh : PlainName head) (hcd : PlainName nv.inv.contentDirectoryToUse)
    (hrel : ∀ p ∈ srcs, ¬ IsAbs p) (hnd : srcs.Nodup) (hq : nv.filesToCopy = [])
    (hfree : ∀ name, head ++ '/' :: nv.inv.contentDirectoryToUse ++ '/' :: name ∉ nv.inv.contentPaths) :
    ∀ x ∈ (nv.addAll E srcs).1.filesToCopy,
      ∃ name, x.2 = head ++ '/' :: nv.inv.contentDirectoryToUse ++ '/' :: name ∧ unquoteToBytes name = utf8 x.1 ∧
        name.head? ≠ some '.' := by
  have main : ∀ (srcs done : List Str) (nv : NV), nv.norm = some c!"uri" → nv.inv.head = some head →
      PlainName nv.inv.contentDirectoryToUse → (∀ p ∈ srcs, ¬ IsAbs p) → (done ++ srcs).Nodup →
      (∀ name, head ++ '/' :: nv.inv.contentDirectoryToUse ++ '/' :: name ∈ nv.inv.contentPaths →
        ∃ p ∈ done, unquoteToBytes name = utf8 p) →
      (∀ x ∈ nv.filesToCopy, ∃ name, x.2 = head ++ '/' :: nv.inv.contentDirectoryToUse ++ '/' :: name ∧
        unquoteToBytes name = utf8 x.1 ∧ name.head? ≠ some '.') →
      ∀ x ∈ (nv.addAll E srcs).1.filesToCopy, ∃ name,
        x.2 = head ++ '/' :: nv.inv.contentDirectoryToUse ++ '/' :: name ∧
        unquoteToBytes name = utf8 x.1 ∧ name.head? ≠ some '.' := by
    intro srcs
    induction srcs with
    | nil => intro done nv _ _ _ _ _ _ hx; exact hx
    | cons p srcs ih =>
      intro done nv hn hhd hcd hrel hnd hused hx
      have hskip : ∀ e, nv.add E p p none = (nv, .error e) → ∀ x ∈ (nv.addAll E (p :: srcs)).1.filesToCopy, ∃ name,
          x.2 = head ++ '/' :: nv.inv.contentDirectoryToUse ++ '/' :: name ∧
          unquoteToBytes name = utf8 x.1 ∧ name.head? ≠ some '.' := by
        intro e he
        unfold NV.addAll
        rw [he]
        exact hx
      have hadd := NV.add_eq E nv p p none
      rw [hhd] at hadd
      simp only at hadd
      split at hadd
      · exact hskip _ hadd
      · rename_i cp hcp
        split at hadd
        · exact hskip _ hadd
        · split at hadd
          · exact hskip _ hadd
          · rename_i digest hdg
            split at hadd
            · exact hskip _ hadd
            · rename_i b hb
              unfold NV.addAll
              rw [hadd]
              simp only
              have hpn : ∀ q ∈ done, q ≠ p := by
                intro q hqm e
                subst e
                rw [List.nodup_append] at hnd
                exact hnd.2.2 q hqm q (by simp) rfl
              have hmap : nv.mapFilepath E head p = .ok cp := hcp
              obtain ⟨name, c1, c2, c3⟩ := C63 E nv head p cp hn hh hcd (hrel p (by simp)) hmap (by
                intro name hm e
                obtain ⟨q, hq1, hq2⟩ := hused name hm
                exact hpn q hq1 (utf8_inj (hq2.symm.trans e)))
              have hset : (nv.inv.setState head (Inv.stateAppend (nv.inv.stateOf head) digest p)).contentDirectoryToUse =
                  nv.inv.contentDirectoryToUse := by
                unfold Inv.setState; split <;> rfl
              have hsethead : (nv.inv.setState head (Inv.stateAppend (nv.inv.stateOf head) digest p)).head = some head := by
                unfold Inv.setState; split <;> exact hhd
              have hcdA : (nv.afterAdd head p p digest cp).inv.contentDirectoryToUse = nv.inv.contentDirectoryToUse := by
                unfold NV.afterAdd
                dsimp only
                split <;> exact hset
              have := ih (done ++ [p]) (nv.afterAdd head p p digest cp)
                (by unfold NV.afterAdd; dsimp only; split <;> exact hn)
                (by unfold NV.afterAdd; dsimp only; split <;> exact hsethead)
                (by rw [hcdA]; exact hcd) (fun q hq => hrel q (by simp [hq])) (by simpa using hnd)
                (by
                  rw [hcdA]
                  intro name' hm
                  unfold NV.afterAdd at hm
                  dsimp only at hm
                  split at hm
                  · unfold Inv.contentPaths at hm
                    have hm' : head ++ '/' :: nv.inv.contentDirectoryToUse ++ '/' :: name' ∈
                        (Inv.stateAppend nv.inv.manifestD digest cp).flatMap Prod.snd := hm
                    rw [List.mem_flatMap] at hm'
                    obtain ⟨y, hy, hy2⟩ := hm'
                    have hcases : head ++ '/' :: nv.inv.contentDirectoryToUse ++ '/' :: name' ∈ nv.inv.contentPaths ∨
                        head ++ '/' :: nv.inv.contentDirectoryToUse ++ '/' :: name' = cp := by
                      unfold Inv.stateAppend at hy
                      unfold Inv.contentPaths
                      split at hy
                      · rename_i ps hps
                        rcases Dict.mem_set_imp hy with hy | hy
                        · exact Or.inl (List.mem_flatMap.mpr ⟨y, hy, hy2⟩)
                        · subst hy
                          rcases List.mem_append.mp hy2 with hy2 | hy2
                          · exact Or.inl (List.mem_flatMap.mpr ⟨_, Dict.mem_of_get? hps, hy2⟩)
                          · simp at hy2; exact Or.inr (by simpa using hy2)
                      · rcases Dict.mem_set_imp hy with hy | hy
                        · exact Or.inl (List.mem_flatMap.mpr ⟨y, hy, hy2⟩)
                        · subst hy; simp at hy2; exact Or.inr (by simpa using hy2)
                    rcases hcases with hm | hm
                    · obtain ⟨q, hq1, hq2⟩ := hused name' hm
                      exact ⟨q, by simp [hq1], hq2⟩
                    · rw [c1] at hm
                      have := List.append_cancel_left hm
                      simp at this
                      subst this
                      exact ⟨p, by simp, c2⟩
                  · have hm' : head ++ '/' :: nv.inv.contentDirectoryToUse ++ '/' :: name' ∈ nv.inv.contentPaths := by
                      rw [Inv.setState_contentPaths] at hm
                      exact hm
                    obtain ⟨q, hq1, hq2⟩ := hused name' hm'
                    exact ⟨q, by simp [hq1], hq2⟩)
                (by
                  rw [hcdA]
                  intro x hxm
                  unfold NV.afterAdd at hxm
                  dsimp only at hxm
                  split at hxm
                  · rcases Dict.mem_set_imp hxm with hxm | hxm
                    · exact hx x hxm
                    · subst hxm; exact ⟨name, c1, c2, c3⟩
                  · exact hx x hxm)
              rw [hcdA] at this
              exact this
  exact main srcs [] nv hn hhead hcd hrel (by simpa using hnd) (fun name hm => absurd hm (hfree name))
    (by rw [hq]; simp)

/-- **C63**, injectivity: entries of such a queue with one content path come from one source path. -/
theorem C63_injective (E : NVEnv) (srcs : List Str) (nv : NV) (head : Str) (hn : nv.norm = some c!"uri")
    (hhead : nv.inv.head = some head) (hh : PlainName head) (hcd : PlainName nv.inv.contentDirectoryToUse)
    (hrel : ∀ p ∈ srcs, ¬ IsAbs p) (hnd : srcs.Nodup) (hq : nv.filesToCopy = [])
    (hfree : ∀ name, head ++ '/' :: nv.inv.contentDirectoryToUse ++ '/' :: name ∉ nv.inv.contentPaths)
    (x y : Str × Str) (hx : x ∈ (nv.addAll E srcs).1.filesToCopy) (hy : y ∈ (nv.addAll E srcs).1.filesToCopy)
    (h : x.2 = y.2) : x.1 = y.1 := by
  obtain ⟨n1, a1, b1, _⟩ := C63_version E srcs nv head hn hhead hh hcd hrel hnd hq hfree x hx
  obtain ⟨n2, a2, b2, _⟩ := C63_version E srcs nv head hn hhead hh hcd hrel hnd hq hfree y hy
  rw [a1, a2] at h
  have := List.append_cancel_left h
  simp at this
  subst this
  exact utf8_inj (b1.symm.trans b2)

/-- Non-vacuity: a version that meets the hypotheses, with awkward source paths. -/
example : (({ inv := { head := some c!"v1", versions := some [(c!"v1", {})] }, norm := some c!"uri" } : NV).addAll
    { srcDigest := fun _ s => .ok s, md5hex := id } [c!".a b", c!"%2Ea%20b", c!"ü/.."]).1.filesToCopy =
      [(c!".a b", c!"v1/content/%2Ea%20b"), (c!"%2Ea%20b", c!"v1/content/%252Ea%2520b"),
       (c!"ü/..", c!"v1/content/%C3%BC/..")] := by decide +kernel

end Ocfl
