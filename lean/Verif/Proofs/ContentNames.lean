import Verif.Proofs.AddFiles
import Verif.Proofs.Layout
import Verif.Proofs.Paths
import Verif.Proofs.InventorySpec

/-! # The components of content paths -/

namespace Ocfl
open Spec

namespace NV
open Ocfl.Inv

theorem urlquote_append (a b : Str) : urlquote (a ++ b) = urlquote a ++ urlquote b := by
  unfold urlquote quoteWith; rw [List.flatMap_append]

theorem urlquote_slash (b : Str) : urlquote ('/' :: b) = '/' :: urlquote b := by
  rw [urlquote_cons]; rfl

theorem urlquote_joinWith : ∀ r : List Str, urlquote (joinWith '/' r) = joinWith '/' (r.map urlquote)
  | [] => rfl
  | [w] => rfl
  | w :: w' :: ws => by
    have h1 : joinWith '/' (w :: w' :: ws) = w ++ '/' :: joinWith '/' (w' :: ws) := joinWith_cons _ _ (by simp)
    have h2 : joinWith '/' (urlquote w :: (w' :: ws).map urlquote) = urlquote w ++ '/' :: joinWith '/' ((w' :: ws).map urlquote) :=
      joinWith_cons _ _ (by simp)
    rw [h1, urlquote_append, urlquote_slash, urlquote_joinWith (w' :: ws), List.map_cons (a := w), h2]

theorem urlquote_inj {a b : Str} (h : urlquote a = urlquote b) : a = b := by
  apply utf8_inj
  rw [← unquote_urlquote, h, unquote_urlquote]

/-- The characters in a quoted name. -/
def isQuoted (c : Char) : Bool := isUnreserved c || c = '%'

theorem hexUpper_quoted : ∀ n, n < 16 → isQuoted (hexDigitUpper n) = true := by decide

theorem pctUpper_quoted {b : UInt8} {c : Char} (h : c ∈ pctUpper b) : isQuoted c = true := by
  have hb : b.toNat < 256 := b.toNat_lt
  unfold pctUpper at h
  simp only [List.mem_cons, List.not_mem_nil, or_false] at h
  rcases h with rfl | rfl | rfl
  · decide
  · exact hexUpper_quoted _ (by omega)
  · exact hexUpper_quoted _ (by omega)

theorem urlquote_quoted {w : Str} (hw : '/' ∉ w) {c : Char} (h : c ∈ urlquote w) : isQuoted c = true := by
  unfold urlquote quoteWith at h
  rw [List.mem_flatMap] at h
  obtain ⟨a, ha, h⟩ := h
  split at h
  · rename_i hk
    simp at h; subst h
    have : c ≠ '/' := by rintro rfl; exact hw ha
    simp [this] at hk
    simp [isQuoted, hk]
  · rw [List.mem_flatMap] at h
    obtain ⟨b, -, h⟩ := h
    exact pctUpper_quoted h

theorem isQuoted_ne {c : Char} (h : isQuoted c = true) : c ≠ '/' ∧ c ≠ '\n' := by
  constructor <;> (rintro rfl; revert h; decide)

theorem urlquote_safe {w : Str} (hw : SafeName w) : SafeName (urlquote w) := by
  refine ⟨?_, ?_, ?_, ?_⟩
  · rw [ne_eq, urlquote_nil_iff]; exact hw.1
  · intro h; exact hw.2.1 (urlquote_inj (h.trans (by decide)))
  · intro h; exact hw.2.2.1 (urlquote_inj (h.trans (by decide)))
  · intro h; exact (isQuoted_ne (urlquote_quoted hw.2.2.2 h)).1 rfl

/-- A period at the beginning is quoted too. -/
def guardDot : Str → Str
  | '.' :: rest => c!"%2E" ++ rest
  | q => q

theorem guardDot_dot (rest : Str) : guardDot ('.' :: rest) = c!"%2E" ++ rest := rfl

theorem guardDot_ne {c : Char} (hc : c ≠ '.') (rest : Str) : guardDot (c :: rest) = c :: rest := by
  unfold guardDot
  split
  · rename_i h; simp at h; exact absurd h.1 hc
  · rfl

theorem unquote_guardDot (q : Str) : unquoteToBytes (guardDot q) = unquoteToBytes q := by
  cases q with
  | nil => rfl
  | cons c q =>
    by_cases hc : c = '.'
    · subst hc
      rw [guardDot_dot, unquote_char (by decide)]
      exact unquote_pctUpper 46 q
    · rw [guardDot_ne hc]

theorem guardDot_append {a b : Str} (ha : a ≠ []) : guardDot (a ++ b) = guardDot a ++ b := by
  cases a with
  | nil => exact absurd rfl ha
  | cons c a =>
    by_cases hc : c = '.'
    · subst hc
      rw [List.cons_append, guardDot_dot, guardDot_dot, List.append_assoc]
    · rw [List.cons_append, guardDot_ne hc, guardDot_ne hc, List.cons_append]

theorem guardDot_quoted {w : Str} (h : ∀ c ∈ w, isQuoted c = true) {c : Char} (hc : c ∈ guardDot w) : isQuoted c = true := by
  cases w with
  | nil => exact h c hc
  | cons a w =>
    by_cases ha : a = '.'
    · subst ha
      rw [guardDot_dot] at hc
      rcases List.mem_append.mp hc with hc | hc
      · exact (show ∀ c ∈ c!"%2E", isQuoted c = true by decide) c hc
      · exact h c (by simp [hc])
    · rw [guardDot_ne ha] at hc; exact h c hc

theorem guardDot_safe {w : Str} (hw : SafeName w) : SafeName (guardDot w) := by
  cases w with
  | nil => exact hw
  | cons a w =>
    by_cases ha : a = '.'
    · subst ha
      rw [guardDot_dot]
      refine ⟨by simp, by simp, by simp, ?_⟩
      intro h
      rcases List.mem_append.mp h with h | h
      · revert h; decide
      · exact hw.2.2.2 (by simp [h])
    · rw [guardDot_ne ha]; exact hw

/-- The names that the `uri` normalisation gives. -/
def uriSegs : List Str → List Str
  | [] => []
  | w :: ws => guardDot (urlquote w) :: ws.map urlquote

theorem joinWith_uriSegs {r : List Str} (h : ∀ w ∈ r, SafeName w) : joinWith '/' (uriSegs r) = guardDot (urlquote (joinWith '/' r)) := by
  cases r with
  | nil => rfl
  | cons w ws =>
    rw [urlquote_joinWith]
    by_cases hws : ws = []
    · subst hws; rfl
    · unfold uriSegs
      rw [List.map_cons, joinWith_cons _ _ (by simpa using hws), joinWith_cons _ _ (by simpa using hws),
        guardDot_append (urlquote_safe (h w (by simp))).1]

theorem uriSegs_length (r : List Str) : (uriSegs r).length = r.length := by
  cases r <;> simp [uriSegs]

theorem uriSegs_safe {r : List Str} (h : ∀ w ∈ r, SafeName w) : ∀ w ∈ uriSegs r, SafeName w ∧ '\n' ∉ w := by
  cases r with
  | nil => simp [uriSegs]
  | cons w ws =>
    intro x hx
    unfold uriSegs at hx
    rcases List.mem_cons.mp hx with rfl | hx
    · refine ⟨guardDot_safe (urlquote_safe (h w (by simp))), ?_⟩
      intro hn
      exact (isQuoted_ne (guardDot_quoted (fun c hc => urlquote_quoted (h w (by simp)).2.2.2 hc) hn)).2 rfl
    · obtain ⟨y, hy, rfl⟩ := List.mem_map.mp hx
      refine ⟨urlquote_safe (h y (by simp [hy])), ?_⟩
      intro hn
      exact (isQuoted_ne (urlquote_quoted (h y (by simp [hy])).2.2.2 hn)).2 rfl

theorem map_urlquote_prefix {a b : List Str} (h : a.map urlquote <+: b.map urlquote) : a <+: b := by
  induction a generalizing b with
  | nil => simp
  | cons x a ih =>
    cases b with
    | nil => simp at h
    | cons y b =>
      rw [List.map_cons, List.map_cons, List.cons_prefix_cons] at h
      rw [List.cons_prefix_cons]
      exact ⟨urlquote_inj h.1, ih h.2⟩

theorem uriSegs_prefix {a b : List Str} (h : uriSegs a <+: uriSegs b) : a <+: b := by
  cases a with
  | nil => simp
  | cons x a =>
    cases b with
    | nil => simp [uriSegs] at h
    | cons y b =>
      unfold uriSegs at h
      rw [List.cons_prefix_cons] at h
      rw [List.cons_prefix_cons]
      refine ⟨?_, map_urlquote_prefix h.2⟩
      apply utf8_inj
      have := congrArg unquoteToBytes h.1
      rwa [unquote_guardDot, unquote_guardDot, unquote_urlquote, unquote_urlquote] at this

end NV

namespace Spec

/-- Names made with MD5 are hexadecimal. -/
def HexNames (md5hex : Str → Str) : Prop := ∀ p, md5hex p ≠ [] ∧ ∀ c ∈ md5hex p, c ∈ c!"0123456789abcdef"

/-- A name that can be used as content directory, or none. -/
def ContentDirName (cd : Str) : Prop := '/' ∉ cd ∧ cd ≠ c!"." ∧ cd ≠ c!".."

instance (cd : Str) : Decidable (ContentDirName cd) := by unfold ContentDirName; infer_instance

end Spec

namespace NV

/-- The directories for a content directory name. -/
def cdSegs (cd : Str) : List Str := if cd = [] then [] else [cd]

theorem cdSegs_safe {cd : Str} (h : ContentDirName cd) : ∀ w ∈ cdSegs cd, SafeName w := by
  intro w hw
  unfold cdSegs at hw
  split at hw
  · simp at hw
  · rename_i hne
    simp at hw; subst hw
    exact ⟨hne, h.2.1, h.2.2, h.1⟩

/-- The names below the content directory for a source path with components `r`. -/
def nameSegs (E : NVEnv) (norm : Option Str) (r : List Str) : List Str :=
  if norm = some c!"uri" then uriSegs r
  else if norm = some c!"md5" then [(E.md5hex (joinWith '/' r)).take 16]
  else r

theorem hexName_safe {w : Str} (hne : w ≠ []) (h : ∀ c ∈ w, c ∈ c!"0123456789abcdef") : SafeName w ∧ '\n' ∉ w := by
  have hx : ∀ c ∈ w, c ≠ '/' ∧ c ≠ '.' ∧ c ≠ '\n' := by
    intro c hc
    have := h c hc
    refine ⟨?_, ?_, ?_⟩ <;> (rintro rfl; revert this; decide)
  refine ⟨⟨hne, ?_, ?_, fun hm => (hx _ hm).1 rfl⟩, fun hm => (hx _ hm).2.2 rfl⟩
  · rintro rfl; exact (hx '.' (by simp)).2.1 rfl
  · rintro rfl; exact (hx '.' (by simp)).2.1 rfl

theorem nameSegs_safe {E : NVEnv} {norm : Option Str} (hh : HexNames E.md5hex) {r : List Str} (hne : r ≠ [])
    (h : ∀ w ∈ r, SafeName w) : nameSegs E norm r ≠ [] ∧ ∀ w ∈ nameSegs E norm r, SafeName w := by
  unfold nameSegs
  split
  · refine ⟨?_, fun w hw => (uriSegs_safe h w hw).1⟩
    intro e
    have := uriSegs_length r
    rw [e] at this
    exact hne (by simpa using this.symm)
  · split
    · refine ⟨by simp, ?_⟩
      intro w hw
      simp only [List.mem_singleton] at hw
      subst hw
      obtain ⟨h1, h2⟩ := hh (joinWith '/' r)
      refine (hexName_safe ?_ (fun c hc => h2 c (List.mem_of_mem_take hc))).1
      simp [h1]
    · exact ⟨hne, h⟩

/-- With one of the two normalisations there are no newlines in names. -/
theorem nameSegs_noNewline {E : NVEnv} {norm : Option Str} (hh : HexNames E.md5hex) {r : List Str}
    (h : ∀ w ∈ r, SafeName w) (hn : norm = none → ∀ w ∈ r, '\n' ∉ w) (hok : norm = none ∨ norm = some c!"md5" ∨ norm = some c!"uri") :
    ∀ w ∈ nameSegs E norm r, '\n' ∉ w := by
  unfold nameSegs
  split
  · exact fun w hw => (uriSegs_safe h w hw).2
  · rename_i h1
    split
    · intro w hw
      simp only [List.mem_singleton] at hw
      subst hw
      obtain ⟨h1, h2⟩ := hh (joinWith '/' r)
      refine (hexName_safe ?_ (fun c hc => h2 c (List.mem_of_mem_take hc))).2
      simp [h1]
    · rename_i h2
      rcases hok with h3 | h3 | h3
      · exact hn h3
      · exact absurd h3 h2
      · exact absurd h3 h1

theorem osPathJoin_cd {head cd : Str} (hh : SafeName head) (hcd : ContentDirName cd) {segs : List Str} (hne : segs ≠ [])
    (hs : ∀ w ∈ segs, SafeName w) :
    osPathJoin (osPathJoin head cd) (joinWith '/' segs) = joinWith '/' (head :: (cdSegs cd ++ segs)) := by
  have hrel : (joinWith '/' segs).head? ≠ some '/' := by
    cases segs with
    | nil => exact absurd rfl hne
    | cons w ws =>
      obtain ⟨h1, -, -, h4⟩ := hs w (by simp)
      cases w with
      | nil => exact absurd rfl h1
      | cons c w =>
        cases ws with
        | nil => simp only [joinWith, List.head?_cons, ne_eq, Option.some.injEq]; rintro rfl; exact h4 (by simp)
        | cons w' ws =>
          rw [joinWith_cons _ _ (by simp)]
          simp only [List.cons_append, List.head?_cons, ne_eq, Option.some.injEq]; rintro rfl; exact h4 (by simp)
  unfold cdSegs
  split
  · rename_i h0
    subst h0
    have e1 : osPathJoin head [] = head ++ ['/'] := by
      rw [osPathJoin_of hh.1 (endsWith_slash_of_not_mem hh.2.2.2) (by simp)]
    rw [e1, List.nil_append, joinWith_cons _ _ hne]
    unfold osPathJoin
    split
    · rename_i hb; rw [hb] at hrel; exact absurd rfl hrel
    · rw [if_pos ?_]
      · simp
      · right; exact endsWith_iff.mpr ⟨head, rfl⟩
  · rename_i h0
    have hcs : cd.head? ≠ some '/' := by
      intro e
      cases cd with
      | nil => cases e
      | cons c cd => simp at e; subst e; exact hcd.1 (by simp)
    rw [osPathJoin_of hh.1 (endsWith_slash_of_not_mem hh.2.2.2) hcs]
    rw [osPathJoin_of (by simp) ?_ hrel]
    · rw [List.singleton_append, joinWith_cons _ _ (by simp), joinWith_cons _ _ hne]
      simp
    · have : head ++ '/' :: cd = (head ++ ['/']) ++ cd := by simp
      rw [this, endsWith_slash_append h0]
      exact endsWith_slash_of_not_mem hcd.1

theorem mapped_segs {E : NVEnv} {nv : NV} {r : List Str} (hne : r ≠ []) (h : ∀ w ∈ r, SafeName w)
    (hok : nv.norm = none ∨ nv.norm = some c!"md5" ∨ nv.norm = some c!"uri") :
    nv.mapped E (joinWith '/' r) = .ok (joinWith '/' (nameSegs E nv.norm r)) := by
  unfold mapped nameSegs
  split
  · rw [joinWith_uriSegs h]
    have hn : urlquote (joinWith '/' r) ≠ [] := by
      rw [ne_eq, urlquote_nil_iff]
      exact joinWith_ne_nil hne (fun w hw => SafeName.isComp (h w hw))
    match hq : urlquote (joinWith '/' r), hn with
    | c :: q, _ =>
      by_cases hc : c = '.'
      · subst hc; rfl
      · rw [guardDot_ne hc]
        split
        · rename_i h0; cases h0
        · rename_i h0; simp at h0; exact absurd h0.1 hc
        · rfl
  · rename_i h1
    split
    · rfl
    · rename_i h2
      rcases hok with h3 | h3 | h3
      · rw [if_neg (by simp [h3])]
      · exact absurd h3 h2
      · exact absurd h3 h1

theorem norm_of_mapped {E : NVEnv} {nv : NV} {p fp : Str} (h : nv.mapped E p = .ok fp) :
    nv.norm = none ∨ nv.norm = some c!"md5" ∨ nv.norm = some c!"uri" := by
  rcases mapped_isOk.mp ⟨fp, h⟩ with h | h | h
  · exact Or.inl h
  · exact Or.inr (Or.inl h)
  · exact Or.inr (Or.inr h.1)

theorem vpath_segs {E : NVEnv} {nv : NV} {head : Str} (hh : SafeName head) (hcd : ContentDirName nv.inv.contentDirectoryToUse)
    (hx : HexNames E.md5hex) {r : List Str} (hne : r ≠ []) (h : ∀ w ∈ r, SafeName w) {v : Str}
    (hv : nv.vpath E head (joinWith '/' r) = some v) :
    v = joinWith '/' (head :: (cdSegs nv.inv.contentDirectoryToUse ++ nameSegs E nv.norm r)) := by
  unfold vpath at hv
  split at hv
  · cases hv
  · rename_i fp hfp
    have hok := norm_of_mapped hfp
    rw [mapped_segs hne h hok] at hfp
    cases hfp
    cases hv
    obtain ⟨h1, h2⟩ := nameSegs_safe (norm := nv.norm) hx hne h
    exact osPathJoin_cd hh hcd h1 h2

/-! ## A number added to a name -/

theorem cand_safe {w : Str} (h : SafeName w) (k : Nat) : SafeName (cand w c!"__" k) := by
  unfold cand
  split
  · exact h
  · have hne : ∀ (t : Str), t ∈ [c!".", c!".."] → w ++ c!"__" ++ natStr k ≠ t := by
      intro t ht e
      have : '_' ∈ t := by rw [← e]; simp
      exact absurd this ((show ∀ t ∈ [c!".", c!".."], '_' ∉ t by decide) t ht)
    refine ⟨by simp, hne _ (by simp), hne _ (by simp), ?_⟩
    intro hm
    rcases List.mem_append.mp hm with hm | hm
    · rcases List.mem_append.mp hm with hm | hm
      · exact h.2.2.2 hm
      · revert hm; decide
    · have := natStr_isDigit hm
      revert this; decide

theorem cand_newline {w : Str} (h : '\n' ∉ w) (k : Nat) : '\n' ∉ cand w c!"__" k := by
  unfold cand
  split
  · exact h
  · intro hm
    rcases List.mem_append.mp hm with hm | hm
    · rcases List.mem_append.mp hm with hm | hm
      · exact h hm
      · revert hm; decide
    · have := natStr_isDigit hm
      revert this; decide

theorem joinWith_concat (xs : List Str) (w t : Str) : joinWith '/' (xs ++ [w]) ++ t = joinWith '/' (xs ++ [w ++ t]) := by
  by_cases hx : xs = []
  · subst hx; rfl
  · rw [joinWith_append hx (by simp), joinWith_append hx (by simp)]
    simp [joinWith]

theorem cand_joinWith (xs : List Str) (w : Str) (k : Nat) :
    cand (joinWith '/' (xs ++ [w])) c!"__" k = joinWith '/' (xs ++ [cand w c!"__" k]) := by
  unfold cand
  split
  · rfl
  · rw [List.append_assoc, joinWith_concat, List.append_assoc]

/-- The last name with a number. -/
def candSegs (segs : List Str) (k : Nat) : List Str :=
  match segs.getLast? with
  | none => []
  | some w => segs.dropLast ++ [cand w c!"__" k]

theorem candSegs_concat (xs : List Str) (w : Str) (k : Nat) : candSegs (xs ++ [w]) k = xs ++ [cand w c!"__" k] := by
  unfold candSegs; simp

theorem candSegs_one (segs : List Str) : candSegs segs 1 = segs := by
  rcases List.eq_nil_or_concat segs with rfl | ⟨xs, w, rfl⟩
  · rfl
  · rw [List.concat_eq_append, candSegs_concat]; rfl

theorem candSegs_safe {segs : List Str} (hne : segs ≠ []) (h : ∀ w ∈ segs, SafeName w) (k : Nat) :
    candSegs segs k ≠ [] ∧ ∀ w ∈ candSegs segs k, SafeName w := by
  rcases List.eq_nil_or_concat segs with rfl | ⟨xs, w, rfl⟩
  · exact absurd rfl hne
  · rw [List.concat_eq_append] at h ⊢
    rw [candSegs_concat]
    refine ⟨by simp, ?_⟩
    intro x hx
    rcases List.mem_append.mp hx with hx | hx
    · exact h x (by simp [hx])
    · simp at hx; subst hx; exact cand_safe (h w (by simp)) k

theorem candSegs_newline {segs : List Str} (h : ∀ w ∈ segs, '\n' ∉ w) (k : Nat) : ∀ w ∈ candSegs segs k, '\n' ∉ w := by
  rcases List.eq_nil_or_concat segs with rfl | ⟨xs, w, rfl⟩
  · simp [candSegs]
  · rw [List.concat_eq_append] at h ⊢
    rw [candSegs_concat]
    intro x hx
    rcases List.mem_append.mp hx with hx | hx
    · exact h x (by simp [hx])
    · simp at hx; subst hx; exact cand_newline (h w (by simp)) k

theorem cand_path {xs segs : List Str} (hne : segs ≠ []) (k : Nat) :
    cand (joinWith '/' (xs ++ segs)) c!"__" k = joinWith '/' (xs ++ candSegs segs k) := by
  rcases List.eq_nil_or_concat segs with rfl | ⟨ys, w, rfl⟩
  · exact absurd rfl hne
  · rw [List.concat_eq_append, candSegs_concat, ← List.append_assoc, cand_joinWith, List.append_assoc]

/-! ## The queue -/

/-- The names of source files: components, none below another. -/
structure SourceNames (srcs : List Str) : Prop where
  names : ∀ p ∈ srcs, ∃ r, r ≠ [] ∧ (∀ w ∈ r, SafeName w) ∧ p = joinWith '/' r
  apart : ∀ r r', r ≠ [] → (∀ w ∈ r', SafeName w) → joinWith '/' r ∈ srcs → joinWith '/' r' ∈ srcs → r <+: r' → r = r'

/-- Every queued content path consists of the version, the content directory and names below it. -/
theorem Added.contentPath {E : NVEnv} {nv0 nv : NV} {head : Str} {srcs : List Str} (h : Added E nv0 head srcs nv)
    (hs : SourceNames srcs) (hh : SafeName head) (hcd : ContentDirName nv0.inv.contentDirectoryToUse) (hx : HexNames E.md5hex)
    {x : Str × Str} (hm : x ∈ nv.filesToCopy) :
    ∃ r k, r ≠ [] ∧ (∀ w ∈ r, SafeName w) ∧ x.1 = joinWith '/' r ∧ 1 ≤ k ∧
      (nv0.norm = none ∨ nv0.norm = some c!"md5" ∨ nv0.norm = some c!"uri") ∧
      x.2 = joinWith '/' (head :: (cdSegs nv0.inv.contentDirectoryToUse ++ candSegs (nameSegs E nv0.norm r) k)) := by
  obtain ⟨r, h1, h2, h3⟩ := hs.names _ (h.queueDone x hm)
  obtain ⟨v, k, hv, hk, hc⟩ := h.shape x hm
  rw [h3] at hv
  have hok : nv0.norm = none ∨ nv0.norm = some c!"md5" ∨ nv0.norm = some c!"uri" := by
    unfold NV.vpath at hv
    split at hv
    · cases hv
    · rename_i fp hfp; exact norm_of_mapped hfp
  refine ⟨r, k, h1, h2, h3, hk, hok, ?_⟩
  rw [hc, vpath_segs hh hcd hx h1 h2 hv]
  have := cand_path (xs := head :: cdSegs nv0.inv.contentDirectoryToUse) (nameSegs_safe (norm := nv0.norm) hx h1 h2).1 k
  simpa using this

/-- The names below the content directory of the queued files: they are safe names, none below another. -/
theorem Added.queueSegs {E : NVEnv} {nv0 nv : NV} {head : Str} {srcs : List Str} (h : Added E nv0 head srcs nv)
    (hs : SourceNames srcs) (hh : SafeName head) (hcd : ContentDirName nv0.inv.contentDirectoryToUse) (hx : HexNames E.md5hex)
    (hfree : ∀ c ∈ listed nv0.inv.manifestD, ¬ InDir head c) :
    ∃ f : Str → List Str, (∀ x ∈ nv.filesToCopy, f x.2 ≠ [] ∧ (∀ w ∈ f x.2, SafeName w) ∧
        x.2 = joinWith '/' (head :: (cdSegs nv0.inv.contentDirectoryToUse ++ f x.2)) ∧
        ((nv0.norm = none → '\n' ∉ x.1) → ∀ w ∈ f x.2, '\n' ∉ w)) ∧
      ∀ x ∈ nv.filesToCopy, ∀ y ∈ nv.filesToCopy, f x.2 <+: f y.2 → x = y := by
  have hsafe : ∀ w ∈ cdSegs nv0.inv.contentDirectoryToUse, SafeName w := cdSegs_safe hcd
  -- the names are determined by the path
  let f : Str → List Str := fun c => (splitOn '/' c).drop (1 + (cdSegs nv0.inv.contentDirectoryToUse).length)
  have hf : ∀ segs : List Str, segs ≠ [] → (∀ w ∈ segs, SafeName w) →
      f (joinWith '/' (head :: (cdSegs nv0.inv.contentDirectoryToUse ++ segs))) = segs := by
    intro segs hne hsg
    show (splitOn '/' _).drop _ = segs
    rw [splitOn_joinWith (by simp)]
    · have : head :: (cdSegs nv0.inv.contentDirectoryToUse ++ segs) = (head :: cdSegs nv0.inv.contentDirectoryToUse) ++ segs := rfl
      rw [this, List.drop_left' (by simp; omega)]
    · intro w hw
      rcases List.mem_cons.mp hw with rfl | hw
      · exact hh.2.2.2
      · rcases List.mem_append.mp hw with hw | hw
        · exact (hsafe w hw).2.2.2
        · exact (hsg w hw).2.2.2
  have hseg : ∀ x ∈ nv.filesToCopy, ∃ r k, r ≠ [] ∧ (∀ w ∈ r, SafeName w) ∧ x.1 = joinWith '/' r ∧
      (nv0.norm = none ∨ nv0.norm = some c!"md5" ∨ nv0.norm = some c!"uri") ∧
      f x.2 = candSegs (nameSegs E nv0.norm r) k ∧
      x.2 = joinWith '/' (head :: (cdSegs nv0.inv.contentDirectoryToUse ++ f x.2)) ∧ f x.2 ≠ [] ∧ ∀ w ∈ f x.2, SafeName w := by
    intro x hxm
    obtain ⟨r, k, h1, h2, h3, h4, h5, h6⟩ := h.contentPath hs hh hcd hx hxm
    obtain ⟨n1, n2⟩ := nameSegs_safe (norm := nv0.norm) hx h1 h2
    obtain ⟨c1, c2⟩ := candSegs_safe n1 n2 k
    have hfx : f x.2 = candSegs (nameSegs E nv0.norm r) k := by rw [h6]; exact hf _ c1 c2
    exact ⟨r, k, h1, h2, h3, h5, hfx, by rw [hfx]; exact h6, by rw [hfx]; exact c1, by rw [hfx]; exact c2⟩
  refine ⟨f, ?_, ?_⟩
  · intro x hxm
    obtain ⟨r, k, h1, h2, h3, h5, h6, h7, h8, h9⟩ := hseg x hxm
    refine ⟨h8, h9, h7, ?_⟩
    intro hnl
    rw [h6]
    apply candSegs_newline
    refine nameSegs_noNewline hx h2 ?_ h5
    intro hn w hw hc
    apply hnl hn
    rw [h3]
    exact mem_joinWith hw hc
  · intro x hxm y hym hpre
    obtain ⟨r, k, h1, h2, h3, h5, h6, h7, h8, h9⟩ := hseg x hxm
    obtain ⟨r', k', h1', h2', h3', h5', h6', h7', h8', h9'⟩ := hseg y hym
    by_cases hmd : nv0.norm = some c!"md5"
    · -- one name each
      apply h.queueInj x hxm y hym
      rw [h7, h7']
      have e : ∀ (r : List Str) k, (candSegs (nameSegs E nv0.norm r) k).length = 1 := by
        intro r k
        have : nameSegs E nv0.norm r = [] ++ [(E.md5hex (joinWith '/' r)).take 16] := by
          unfold nameSegs; rw [hmd, if_neg (by decide), if_pos rfl]; rfl
        rw [this, candSegs_concat]; rfl
      rw [hpre.eq_of_length (by rw [h6, h6', e, e])]
    · -- no numbers are added
      have hvp : ∀ p ∈ srcs, ∀ v, nv0.vpath E head p = some v → ∃ r, r ≠ [] ∧ (∀ w ∈ r, SafeName w) ∧ p = joinWith '/' r ∧
          v = joinWith '/' (head :: (cdSegs nv0.inv.contentDirectoryToUse ++ nameSegs E nv0.norm r)) := by
        intro p hp v hv
        obtain ⟨r, h1, h2, rfl⟩ := hs.names p hp
        exact ⟨r, h1, h2, rfl, vpath_segs hh hcd hx h1 h2 hv⟩
      have hnp : ∀ a b : List Str, nameSegs E nv0.norm a <+: nameSegs E nv0.norm b → a <+: b := by
        intro a b hab
        unfold nameSegs at hab
        rw [if_neg hmd, if_neg hmd] at hab
        split at hab
        · exact uriSegs_prefix hab
        · exact hab
      have hplain := h.plain (by
        intro p hp p' hp' e
        obtain ⟨d, hd, -⟩ := h.digests p hp
        cases hv : nv0.vpath E head p with
        | none =>
          exfalso
          obtain ⟨r0, q1, q2, q3⟩ := hs.names p hp
          have := mapped_segs (E := E) (nv := nv0) q1 q2 h5
          unfold NV.vpath at hv
          rw [q3, this] at hv
          cases hv
        | some v =>
          obtain ⟨a, a1, a2, a3, a4⟩ := hvp p hp v hv
          obtain ⟨b, b1, b2, b3, b4⟩ := hvp p' hp' v (by rw [← e]; exact hv)
          rw [a4] at b4
          have e1 := congrArg f b4
          rw [hf _ (nameSegs_safe hx a1 a2).1 (nameSegs_safe hx a1 a2).2,
            hf _ (nameSegs_safe hx b1 b2).1 (nameSegs_safe hx b1 b2).2] at e1
          have p1 := hnp a b (by rw [e1]; exact List.prefix_rfl)
          have := hs.apart a b a1 b2 (a3 ▸ hp) (b3 ▸ hp') p1
          rw [a3, b3, this]) (by
        intro p hp v hv hc
        obtain ⟨a, a1, a2, a3, a4⟩ := hvp p hp v hv
        apply hfree v hc
        rw [a4, joinWith_cons _ _ (by
          intro e; exact (nameSegs_safe (norm := nv0.norm) hx a1 a2).1 (List.append_eq_nil_iff.mp e).2)]
        exact ⟨joinWith '/' (cdSegs nv0.inv.contentDirectoryToUse ++ nameSegs E nv0.norm a), by simp⟩)
      have hx' : f x.2 = nameSegs E nv0.norm r := by
        have := hplain x hxm
        rw [h3] at this
        rw [vpath_segs hh hcd hx h1 h2 this]
        exact hf _ (nameSegs_safe hx h1 h2).1 (nameSegs_safe hx h1 h2).2
      have hy' : f y.2 = nameSegs E nv0.norm r' := by
        have := hplain y hym
        rw [h3'] at this
        rw [vpath_segs hh hcd hx h1' h2' this]
        exact hf _ (nameSegs_safe hx h1' h2').1 (nameSegs_safe hx h1' h2').2
      rw [hx', hy'] at hpre
      have := hs.apart r r' h1 h2' (h3 ▸ h.queueDone x hxm) (h3' ▸ h.queueDone y hym) (hnp _ _ hpre)
      apply h.queueInj x hxm y hym
      rw [h7, h7', hx', hy', this]

end NV
end Ocfl
