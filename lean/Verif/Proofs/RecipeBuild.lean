import Verif.Proofs.Recipe

/-!
# Building from the same sources gives the same object
-/

namespace Ocfl

open Spec FS Prog Ocfl.Inv

/-- The inventories depend on the files only. -/
theorem Prepared.unique {E : Env} {o : Obj} {metadata metadata' : Nat → VBlock} {s s' : FS} (hw : s.WF) (hw' : s'.WF) {src src' : Path} {l : List Inv}
    (h : Prepared E o metadata s src l) {l' : List Inv} (h' : Prepared E o metadata' s' src' l') (hlen : l.length = l'.length)
    (hsame : ∀ k < l.length, EqualFiles s (src ++ [unpaddedName (k + 1)]) s' (src' ++ [unpaddedName (k + 1)]) ∧ metadata (k + 1) = metadata' (k + 1)) :
    l = l' := by
  induction h generalizing l' with
  | nil => exact (List.length_eq_zero_iff.mp hlen.symm).symm
  | @snoc l nv0 nv before start isDir add ih =>
    cases h' with
    | nil => simp at hlen
    | @snoc l' nv0' nv' before' start' isDir' add' =>
      simp only [List.length_append, List.length_singleton, Nat.add_right_cancel_iff] at hlen hsame
      have := ih before' hlen (fun k hk => hsame k (by omega))
      subst this
      rw [(hsame l.length (by omega)).2, start'] at start
      cases start
      rw [addFromSrcdir_congr hw hw' isDir isDir' (hsame l.length (by omega)).1, add'] at add
      cases add
      rfl

/-- The files of an object are determined by its inventories. -/
theorem Sound.half {E : Env} {s s' : FS} {base base' : Path} {dv : Str} {trees trees' : List Tree} {recs recs' : List Rec}
    (h : Sound E s base dv trees recs) (h' : Sound E s' base' dv trees' recs') (hinv : recs.map (·.inv) = recs'.map (·.inv))
    (hno : NoCollision E.raw (fun b => InTrees trees b ∨ InTrees trees' b)) {q : Path} {b : Bytes} (hf : FileBelow s base q b) :
    FileBelow s' base' q b := by
  obtain ⟨hne, hl⟩ := hf
  refine ⟨hne, ?_⟩
  -- the same record on the other side
  have hstored : ∀ {dir dir' : Path} {r r' : Rec}, r.inv = r'.inv → r.alg = r'.alg → Stored E s dir r → Stored E s' dir' r' →
      ∀ w, w = inventoryFilename ∨ w = sidecarName r.alg → ∀ b, look s (dir ++ [w]) = some (.file b) → look s' (dir' ++ [w]) = some (.file b) := by
    rintro dir dir' r r' hi ha ⟨k1, d, k2, k3⟩ ⟨k1', d', k2', k3'⟩ w hw b hb
    rw [← hi] at k1' k2'
    rw [← ha] at k2' k3'
    rw [k2] at k2'
    cases k2'
    rcases hw with rfl | rfl
    · rw [k1] at hb; rw [k1', hb]
    · rw [k3] at hb; rw [k3', hb]
  have halg : ∀ {r r' : Rec} {n n' : Nat} {v v' : Str}, r.inv = r'.inv → VersionSound E s base dv (trees.take n) v r →
      VersionSound E s' base' dv (trees'.take n') v' r' → r.alg = r'.alg ∧ r.m = r'.m := by
    intro r r' n n' v v' hi h1 h2
    have a1 := h1.describes.parsed.good.algorithm
    have a2 := h2.describes.parsed.good.algorithm
    have m1 := h1.describes.parsed.good.manifest
    have m2 := h2.describes.parsed.good.manifest
    rw [hi, a2] at a1
    rw [hi, m2] at m1
    exact ⟨(Option.some.inj a1).symm, (Option.some.inj m1).symm⟩
  have hrec : ∀ (k : Nat) (r : Rec), recs[k]? = some r → ∃ r' : Rec, recs'[k]? = some r' ∧ r.inv = r'.inv ∧ r.alg = r'.alg ∧ r.m = r'.m := by
    intro k r hk
    have e := congrArg (fun l => l[k]?) hinv
    simp only [List.getElem?_map, hk, Option.map_some] at e
    cases hk' : recs'[k]? with
    | none => rw [hk'] at e; cases e
    | some r' =>
      rw [hk'] at e
      have hi := Option.some.inj e
      exact ⟨r', rfl, hi, halg hi (h.versions k r hk) (h'.versions k r' hk')⟩
  have hlast : ∀ r : Rec, recs.getLast? = some r → ∃ r' : Rec, recs'.getLast? = some r' ∧ r.inv = r'.inv ∧ r.alg = r'.alg := by
    intro r hr
    have hlen : recs.length = recs'.length := by simpa using congrArg List.length hinv
    rw [List.getLast?_eq_getElem?] at hr
    obtain ⟨r', h1, h2, h3, _⟩ := hrec _ r hr
    exact ⟨r', by rw [List.getLast?_eq_getElem?, ← hlen]; exact h1, h2, h3⟩
  obtain ⟨w, q, rfl⟩ : ∃ w q', q = w :: q' := by
    cases q with
    | nil => exact absurd rfl hne
    | cons w q => exact ⟨w, q, rfl⟩
  rcases h.only w q (by rw [hl]; simp) with ⟨k, hk, rfl⟩ | ⟨rfl, hw⟩
  · obtain ⟨r, hr⟩ : ∃ r, recs[k]? = some r := ⟨_, List.getElem?_eq_getElem (by rw [h.length]; exact hk)⟩
    obtain ⟨r', hr', hi, ha, hm⟩ := hrec k r hr
    have v := h.versions k r hr
    have v' := h'.versions k r' hr'
    by_cases hq : q = []
    · subst hq
      rw [v.isDir] at hl; cases hl
    have e : ∀ (p : Path) (x : Str), p ++ styleName none (k + 1) :: [x] = p ++ [styleName none (k + 1)] ++ [x] := by simp
    rcases v.only q hq (by rw [hl]; simp) with rfl | rfl | ⟨ws, h1, h2, h3, h4⟩
    · rw [e] at hl ⊢
      exact hstored hi ha v.stored v'.stored _ (Or.inl rfl) b hl
    · rw [e] at hl ⊢
      exact hstored hi ha v.stored v'.stored _ (Or.inr rfl) b hl
    · obtain ⟨d, hd⟩ := mem_listed.mp h4
      obtain ⟨_, _, x, _, _, _, _, _, k6, k7, k8⟩ := v.describes.segs hd
      rw [hm] at hd
      obtain ⟨_, _, x', _, _, _, _, _, k6', k7', k8'⟩ := v'.describes.segs hd
      rw [resolve_pathOf base h3] at k6
      rw [resolve_pathOf base' h3] at k6'
      by_cases hqe : q = ws
      · subst hqe
        rw [k6] at hl
        cases hl
        rw [← ha] at k7'
        have hin : ∀ {ts : List Tree} {n : Nat} {c : Bytes}, InTrees (ts.take n) c → InTrees ts c := by
          rintro ts n c ⟨t, ht, hc⟩
          exact ⟨t, List.mem_of_mem_take ht, hc⟩
        have : b = x' := noCollision_digest hno v.describes.parsed.good.algName (Or.inl (hin k8)) (Or.inr (hin k8')) (by rw [k7, k7'])
        rw [this]
        exact k6'
      · have hp : base ++ styleName none (k + 1) :: q <+: base ++ styleName none (k + 1) :: ws := by
          rw [List.prefix_append_right_inj, List.cons_prefix_cons]
          exact ⟨rfl, h1⟩
        have := look_prefix h.wf hp (by
          intro he
          rw [List.append_cancel_left_eq] at he
          exact hqe (List.cons.inj he).2) k6
        rw [this] at hl; cases hl
  · obtain ⟨rl, hrl, _⟩ := h.last
    obtain ⟨rl', hrl', hi, ha⟩ := hlast rl hrl
    rcases hw with rfl | rfl | ⟨r, hr, rfl⟩
    · exact hstored hi ha (h.root rl hrl) (h'.root rl' hrl') _ (Or.inl rfl) b hl
    · rw [h.declaration] at hl; rw [h'.declaration, hl]
    · rw [hrl] at hr
      cases hr
      exact hstored hi ha (h.root rl hrl) (h'.root rl' hrl') _ (Or.inr rfl) b hl

/-- Two builds. -/
theorem build_same {E : Env} (hhash : HashLib E.raw) (hword : WordClass E.isWord) (hcwd : ∀ w ∈ E.cwd, SafeName w) {o : Obj}
    (ho : GoodSettings o) {srcdir objdir srcdir' objdir' : Str} {metadata metadata' : Nat → VBlock} {s s' t t' : FS} (hw : s.WF) (hw' : s'.WF) {n : Nat}
    (hsources : VersionSources s (absComps E.cwd srcdir) n) (hsources' : VersionSources s' (absComps E.cwd srcdir') n)
    (hmeta : ∀ k < n, GoodMeta (some (metadata (k + 1)))) (hmeta' : ∀ k < n, metadata (k + 1) = metadata' (k + 1))
    (hvac : Vacant s (absComps E.cwd objdir)) (hvac' : Vacant s' (absComps E.cwd objdir'))
    (hout : ¬ absComps E.cwd srcdir <+: absComps E.cwd objdir) (hout' : ¬ absComps E.cwd srcdir' <+: absComps E.cwd objdir')
    (hfile : ∃ r b, FileBelow s (absComps E.cwd srcdir ++ [c!"v1"]) r b) (hfile' : ∃ r b, FileBelow s' (absComps E.cwd srcdir' ++ [c!"v1"]) r b)
    (hnames : ∀ t ∈ versionTrees s (absComps E.cwd srcdir) n, NamesAllowed o t)
    (hnames' : ∀ t ∈ versionTrees s' (absComps E.cwd srcdir') n, NamesAllowed o t)
    (hsame : ∀ k < n, EqualFiles s (absComps E.cwd srcdir ++ [unpaddedName (k + 1)]) s' (absComps E.cwd srcdir' ++ [unpaddedName (k + 1)]))
    (hno : NoCollision E.raw (InTrees (versionTrees s (absComps E.cwd srcdir) n))) {inv inv' : Option Inv}
    (hr : run (build E o srcdir metadata (some objdir)) s = (t, .ok inv))
    (hr' : run (build E o srcdir' metadata' (some objdir')) s' = (t', .ok inv')) :
    EqualFiles t (absComps E.cwd objdir) t' (absComps E.cwd objdir') := by
  obtain ⟨recs, _, _, _, hs, _, _, _, hp⟩ := sound_build_prepared hhash hword hcwd ho hw hsources hmeta hvac hout hfile hnames hr
  obtain ⟨recs', _, _, _, hs', _, _, _, hp'⟩ := sound_build_prepared hhash hword hcwd ho hw' hsources'
    (fun k hk => by rw [← hmeta' k hk]; exact hmeta k hk) hvac' hout' hfile' hnames' hr'
  have hlen : recs.length = n := by rw [hs.length, versionTrees_length]
  have hlen' : recs'.length = n := by rw [hs'.length, versionTrees_length]
  have hinv := hp.unique hw hw' hp' (by rw [List.length_map, List.length_map, hlen, hlen'])
    (by rw [List.length_map, hlen]; exact fun k hk => ⟨hsame k hk, hmeta' k hk⟩)
  have hsub : ∀ b, InTrees (versionTrees s' (absComps E.cwd srcdir') n) b → InTrees (versionTrees s (absComps E.cwd srcdir) n) b := by
    rintro b ⟨u, hu, r, hb⟩
    obtain ⟨k, hk, rfl⟩ := List.mem_map.mp hu
    exact ⟨_, List.mem_map.mpr ⟨k, hk, rfl⟩, r, (hsame k (List.mem_range.mp hk) r b).mpr hb⟩
  intro q b
  exact ⟨hs.half hs' hinv (NoCollision.mono hno (by rintro b (h | h); exacts [h, hsub b h])),
    hs'.half hs hinv.symm (NoCollision.mono hno (by rintro b (h | h); exacts [hsub b h, h]))⟩

end Ocfl
