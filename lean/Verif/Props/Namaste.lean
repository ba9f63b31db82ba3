import Verif.Proofs.Namaste
import Verif.Py.Decimal

/-!
# C52 and C64: Namaste files and what a path is
-/

namespace Ocfl

open Spec FS Prog

theorem startsWith_drop {f p : Str} (h : startsWith f p = true) : f = p ++ f.drop p.length := by
  obtain ⟨t, rfl⟩ := startsWith_iff.mp h
  simp

theorem strLe_append (p a b : Str) : strLe (p ++ a) (p ++ b) = strLe a b := by
  induction p with
  | nil => rfl
  | cons x p ih => rw [List.cons_append, List.cons_append]; unfold strLe; rw [if_pos rfl]; rw [ih]; cases a <;> cases b <;> simp [strLe]

/-- C52, finding: the tags with a number in a directory, each once, in order; too many raise. -/
theorem C52_find {s : FS} (h : s.WF) {base : Path} {ws : List Str} (hws : ∀ w ∈ ws, SafeName w) {dir : Str}
    (hdir : dir = joinWith '/' ws ∨ dir = '/' :: joinWith '/' ws) (hd : look s (base ++ ws) = some .dir) (d : Nat) :
    ∃ l : List Str, l.Nodup ∧ l.Pairwise (fun a b => strLe a b = true) ∧
      (∀ t, t ∈ l ↔ look s (base ++ ws ++ [natStr d ++ c!"=" ++ t]) ≠ none) ∧
      ∀ limit, findNamastes s base d dir limit = if l.length > limit then .error .namasteException else .ok l := by
  have hlist := listdirNames_eq h hws hdir hd
  generalize hN : (FS.children s (base ++ ws)).map Prod.fst = N at hlist
  have hNn : N.Nodup := hN ▸ FS.children_names_nodup h _
  have hNm : ∀ n, n ∈ N ↔ look s (base ++ ws ++ [n]) ≠ none := by
    intro n
    rw [← hN, mem_names h]
  generalize hpfx : natStr d ++ c!"=" = pfx
  have hF : ∀ f ∈ sortStr (N.filter (fun f => startsWith f pfx)), f ∈ N ∧ f = pfx ++ f.drop pfx.length := by
    intro f hf
    have := (sortStr_perm _).mem_iff.mp hf
    rw [List.mem_filter] at this
    exact ⟨this.1, startsWith_drop this.2⟩
  refine ⟨(sortStr (N.filter (fun f => startsWith f pfx))).map (fun f => f.drop pfx.length), ?_, ?_, ?_, ?_⟩
  · rw [List.nodup_map_iff_inj_on ((sortStr_perm _).nodup_iff.mpr (hNn.sublist List.filter_sublist))]
    intro a ha b hb e
    rw [(hF a ha).2, (hF b hb).2, e]
  · rw [List.pairwise_map]
    refine (sortStr_sorted _).imp_of_mem ?_
    intro a b ha hb hab
    rw [(hF a ha).2, (hF b hb).2, strLe_append] at hab
    exact hab
  · intro t
    rw [List.mem_map, ← hNm]
    constructor
    · rintro ⟨f, hf, rfl⟩
      obtain ⟨h1, h2⟩ := hF f hf
      rw [← h2]; exact h1
    · intro ht
      refine ⟨pfx ++ t, (sortStr_perm _).mem_iff.mpr (List.mem_filter.mpr ⟨ht, startsWith_iff.mpr ⟨t, rfl⟩⟩), by simp⟩
  · intro limit
    unfold findNamastes
    rw [hlist]
    dsimp only
    rw [hpfx, List.length_map, (sortStr_perm _).length_eq]

/-- The characters of a tvalue. -/
theorem tvalue_chars {isWord : Char → Bool} (hw : WordClass isWord) {content : Str} {c : Char}
    (hc : c ∈ contentToTvalue isWord content) : c ≠ '/' := by
  unfold contentToTvalue at hc
  obtain ⟨a, _, rfl⟩ := List.mem_map.mp hc
  split
  · rename_i ha
    rintro rfl
    have := hw '/' (by decide)
    rw [this] at ha
    revert ha
    decide
  · decide

theorem natStr_no_slash (d : Nat) : '/' ∉ natStr d := by
  intro hc
  have := natStr_isDigit' hc
  revert this
  decide

theorem safe_filename {d : Nat} {t : Str} (ht : '/' ∉ t) : SafeName (natStr d ++ c!"=" ++ t) := by
  have hm : '=' ∈ natStr d ++ c!"=" ++ t := by simp
  refine ⟨?_, ?_, ?_, ?_⟩
  · intro hc; rw [hc] at hm; simp at hm
  · intro hc; rw [hc] at hm; revert hm; decide
  · intro hc; rw [hc] at hm; revert hm; decide
  · intro hc
    rcases List.mem_append.mp hc with hc | hc
    · rcases List.mem_append.mp hc with hc | hc
      · exact natStr_no_slash d hc
      · revert hc; decide
    · exact ht hc

theorem resolve_namaste {base : Path} {ws : List Str} (hws : ∀ w ∈ ws, SafeName w) {n : Str} (hn : SafeName n) {dir : Str}
    (hdir : dir = joinWith '/' ws ∨ dir = '/' :: joinWith '/' ws) :
    FS.resolve base (osPathJoin dir n) = base ++ ws ++ [n] := by
  have hall : ∀ w ∈ ws ++ [n], SafeName w := by
    intro w hw
    rcases List.mem_append.mp hw with h | h
    · exact hws w h
    · rw [List.mem_singleton.mp h]; exact hn
  rcases hdir with rfl | rfl
  · rw [osPathJoin_joinWith (isComp_list hws) hn.2.2.2, resolve_join _ hall, List.append_assoc]
  · have : osPathJoin ('/' :: joinWith '/' ws) n = '/' :: joinWith '/' (ws ++ [n]) :=
      osPathJoin_dstr (isComp_list hws) (SafeName.isComp hn)
    rw [this, resolve_slash_join _ hall, List.append_assoc]

/-- C52, checking: a file is accepted exactly when its name is not empty and is the one derived
from its text. -/
theorem C52_check {isWord : Char → Bool} {s : FS} {base : Path} {ws : List Str} (hws : ∀ w ∈ ws, SafeName w) {dir : Str}
    (hdir : dir = joinWith '/' ws ∨ dir = '/' :: joinWith '/' ws) (d : Nat) {t : Str} (ht : '/' ∉ t) :
    namasteCheck isWord s base d t dir = .ok () ↔
      t ≠ [] ∧ ∃ b text, look s (base ++ ws ++ [natStr d ++ c!"=" ++ t]) = some (.file b) ∧ utf8Decode b = some text ∧
        IsTvalue isWord (univNewlines text) t := by
  unfold namasteCheck namasteFilename
  by_cases h0 : t = []
  · simp [h0]
  · rw [if_neg h0, resolve_namaste hws (safe_filename ht) hdir]
    unfold readText
    constructor
    · intro h
      refine ⟨h0, ?_⟩
      cases hr : FS.read s (base ++ ws ++ [natStr d ++ c!"=" ++ t]) with
      | error e => exfalso; rw [hr] at h; cases e <;> cases h
      | ok b =>
        rw [hr] at h
        dsimp only at h
        cases hu : utf8Decode b with
        | none => rw [hu] at h; cases h
        | some text =>
          rw [hu] at h
          dsimp only at h
          split at h
          · cases h
          · rename_i hne
            exact ⟨b, text, read_ok.mp hr, hu, isTvalue_iff.mpr (by simpa using (not_not.mp hne).symm)⟩
    · rintro ⟨_, b, text, hl, hu, hi⟩
      rw [read_ok.mpr hl]
      dsimp only
      rw [hu]
      dsimp only
      rw [if_neg (by simpa using (isTvalue_iff.mp hi).symm)]

theorem univNewlines_map (s : Str) (h : ¬ c!"\r\n" <:+: s) : univNewlines s = s.map (fun c => if c = '\r' then '\n' else c) := by
  induction s using univNewlines.induct with
  | case1 s ih => exact absurd ⟨[], s, rfl⟩ h
  | case2 s hn ih =>
    rw [univNewlines, ih (fun hc => h (hc.trans (List.suffix_cons _ _).isInfix)), List.map_cons, if_pos rfl]
    exact hn
  | case3 c s h1 h2 ih =>
    have hc : c ≠ '\r' := fun hc => h2 hc
    rw [univNewlines, ih (fun hc => h (hc.trans (List.suffix_cons _ _).isInfix)), List.map_cons, if_neg hc]
    all_goals assumption
  | case4 => rfl

theorem blank_nl : Blank '\n' := by unfold Blank; decide
theorem blank_cr : Blank '\r' := by unfold Blank; decide

theorem blank_nlOf {c : Char} : Blank (if c = '\r' then '\n' else c) ↔ Blank c := by
  split
  · rename_i h; subst h; exact ⟨fun _ => blank_cr, fun _ => blank_nl⟩
  · rfl

/-- Line ends make no difference to the tvalue. -/
theorem tvalue_newlines {isWord : Char → Bool} (hw : WordClass isWord) {content t : Str} (ht : IsTvalue isWord content t) :
    IsTvalue isWord ((content ++ c!"\n").map (fun c => if c = '\r' then '\n' else c)) t := by
  obtain ⟨core, ⟨pre, post, rfl, h1, h2, h3, h4⟩, hf⟩ := ht
  refine ⟨core.map (fun c => if c = '\r' then '\n' else c), ⟨pre.map (fun c => if c = '\r' then '\n' else c),
    (post ++ c!"\n").map (fun c => if c = '\r' then '\n' else c), ?_, ?_, ?_, ?_, ?_⟩, ?_⟩
  · simp
  · intro c hc
    obtain ⟨a, ha, rfl⟩ := List.mem_map.mp hc
    exact blank_nlOf.mpr (h1 a ha)
  · intro c hc
    obtain ⟨a, ha, rfl⟩ := List.mem_map.mp hc
    rw [blank_nlOf]
    rcases List.mem_append.mp ha with ha | ha
    · exact h2 a ha
    · rw [List.mem_singleton.mp ha]; exact blank_nl
  · intro c hc
    rw [List.head?_map] at hc
    obtain ⟨a, ha, rfl⟩ := Option.mem_map.mp hc
    rw [blank_nlOf]
    exact h3 a ha
  · intro c hc
    rw [List.getLast?_map] at hc
    obtain ⟨a, ha, rfl⟩ := Option.mem_map.mp hc
    rw [blank_nlOf]
    exact h4 a ha
  · rw [← List.map_take]
    rw [forall₂_map] at hf ⊢
    rw [hf, List.map_map]
    apply List.map_congr_left
    intro c _
    by_cases hc : c = '\r'
    · subst hc
      have e1 := hw '\r' (by decide)
      have e2 := hw '\n' (by decide)
      simp only [Function.comp, if_true, e1, e2]
      decide
    · simp only [Function.comp, if_neg hc]

/-- C52 (partial): writing a Namaste file gives one more file with that tag, and the check accepts
it. Excluded: contents that are blank, and contents with a carriage return before a newline (see
`C52_violated`). -/
theorem C52_partial {isWord : Char → Bool} (hw : WordClass isWord) {s : FS} (h : s.WF) {base : Path} {ws : List Str}
    (hws : ∀ w ∈ ws, SafeName w) {dir : Str} (hdir : dir = joinWith '/' ws ∨ dir = '/' :: joinWith '/' ws)
    (hd : look s (base ++ ws) = some .dir) (d : Nat) {content t : Str} (ht : IsTvalue isWord content t)
    (hblank : ∃ c ∈ content, ¬ Blank c) (hcr : ¬ c!"\r\n" <:+: content)
    (hnew : look s (base ++ ws ++ [natStr d ++ c!"=" ++ t]) = none) :
    ∃ s', run (namasteWrite isWord base d content dir) s = (s', .ok ()) ∧ s'.WF ∧
      (∀ q, look s' q = if q = base ++ ws ++ [natStr d ++ c!"=" ++ t] then some (.file (utf8 (content ++ c!"\n"))) else look s q) ∧
      namasteCheck isWord s' base d t dir = .ok () ∧
      ∀ l limit, findNamastes s base d dir limit = .ok l →
        ∃ l', findNamastes s' base d dir (limit + 1) = .ok l' ∧ l'.Perm (t :: l) := by
  have ht' := isTvalue_iff.mp ht
  have hsl : '/' ∉ t := by
    intro hc
    rw [← ht'] at hc
    exact tvalue_chars hw hc rfl
  have hsafe := safe_filename (d := d) hsl
  have hpre : (base ++ ws ++ [natStr d ++ c!"=" ++ t]).dropLast = base ++ ws := List.dropLast_concat
  have hwr := exec_write (s := s) (p := base ++ ws ++ [natStr d ++ c!"=" ++ t]) (b := utf8 (content ++ c!"\n"))
    (by rw [hnew]; simp) (by rw [hpre]; exact hd)
  have hall : ∀ w ∈ base ++ ws ++ [natStr d ++ c!"=" ++ t], SafeName w := by
    intro w hw
    rcases List.mem_append.mp hw with h1 | h1
    · exact look_names h hd w h1
    · rw [List.mem_singleton.mp h1]; exact hsafe
  have hnil : base ++ ws ++ [natStr d ++ c!"=" ++ t] ≠ [] := by simp
  have hwf' : FS.WF (Dict.set s (base ++ ws ++ [natStr d ++ c!"=" ++ t]) (.file (utf8 (content ++ c!"\n")))) :=
    WF_set h hnil (by rw [hpre]; exact hd) hall (by rw [hnew]; simp)
  refine ⟨_, ?_, hwf', ?_, ?_, ?_⟩
  · unfold namasteWrite namasteFilename
    rw [ht', resolve_namaste hws hsafe hdir]
    exact hwr
  · intro q
    rw [look_set hnil]
  · rw [C52_check hws hdir d hsl]
    refine ⟨?_, utf8 (content ++ c!"\n"), content ++ c!"\n", ?_, utf8Decode_utf8 _, ?_⟩
    · obtain ⟨core, ⟨pre, post, rfl, h1, h2, -, -⟩, hf⟩ := ht
      rintro rfl
      cases core with
      | cons a core => rw [List.take_succ_cons] at hf; cases hf
      | nil =>
        obtain ⟨c, hc, hnb⟩ := hblank
        simp only [List.append_nil, List.mem_append] at hc
        rcases hc with hc | hc
        · exact hnb (h1 c hc)
        · exact hnb (h2 c hc)
    · rw [look_set hnil]; simp
    · by_cases hl : content.getLast? = some '\r'
      · -- the newline written after the content joins a final carriage return
        obtain ⟨pre, rfl⟩ : ∃ pre, content = pre ++ ['\r'] := by
          rcases List.eq_nil_or_concat content with rfl | ⟨p, c, rfl⟩
          · simp at hl
          · rw [List.concat_eq_append] at hl ⊢
            rw [List.getLast?_concat] at hl
            exact ⟨p, by rw [Option.some.inj hl]⟩
        have hpre' : ¬ c!"\r\n" <:+: pre := fun hc => hcr (hc.trans (List.prefix_append _ _).isInfix)
        have e : univNewlines (pre ++ ['\r'] ++ c!"\n") = (pre ++ c!"\n").map (fun c => if c = '\r' then '\n' else c) := by
          clear hw h hws hdir hd ht ht' hsl hsafe hpre hwr hall hnil hwf' hnew hl hblank
          rw [List.append_assoc]
          induction pre using univNewlines.induct with
          | case1 p ih => exact absurd ⟨[], p, rfl⟩ hpre'
          | case2 p hn ih =>
            have ih := ih (fun hc => hcr (hc.trans (List.suffix_cons _ _).isInfix)) (fun hc => hpre' (hc.trans (List.suffix_cons _ _).isInfix))
            rw [List.cons_append, univNewlines, ih, List.cons_append, List.map_cons, if_pos rfl]
            intro q hq
            cases p with
            | nil => simp at hq
            | cons a p =>
              simp only [List.cons_append, List.cons.injEq] at hq
              exact hn p (by rw [hq.1])
          | case3 c p h1 h2 ih =>
            have hc : c ≠ '\r' := fun hc => h2 hc
            have ih := ih (fun hc => hcr (hc.trans (List.suffix_cons _ _).isInfix)) (fun hc => hpre' (hc.trans (List.suffix_cons _ _).isInfix))
            rw [List.cons_append, univNewlines, ih, List.cons_append, List.map_cons, if_neg hc]
            · intro q hq; exact absurd hq hc
            · exact hc
          | case4 => rfl
        rw [e]
        apply tvalue_newlines hw
        obtain ⟨core, ⟨p, q, he, h1, h2, h3, h4⟩, hf⟩ := ht
        by_cases hq : q = []
        · subst hq
          rw [List.append_nil] at he
          by_cases hcore : core = []
          · subst hcore
            obtain ⟨c, hc, hnb⟩ := hblank
            rw [he, List.append_nil] at hc
            exact absurd (h1 c hc) hnb
          · exfalso
            have : core.getLast? = some '\r' := by
              have := congrArg List.getLast? he
              rw [List.getLast?_concat, List.getLast?_append] at this
              cases hg : core.getLast? with
              | none => exact absurd (List.getLast?_eq_none_iff.mp hg) hcore
              | some x => rw [hg] at this; simpa using this.symm
            exact h4 _ this blank_cr
        · obtain ⟨q', x, rfl⟩ : ∃ q' x, q = q' ++ [x] := by
            rcases List.eq_nil_or_concat q with h | ⟨a, b, h⟩
            · exact absurd h hq
            · exact ⟨a, b, by rw [h, List.concat_eq_append]⟩
          rw [← List.append_assoc] at he
          have he' := List.append_inj_left' he rfl
          exact ⟨core, ⟨p, q', he', h1, fun c hc => h2 c (by simp [hc]), h3, h4⟩, hf⟩
      · rw [univNewlines_map]
        · exact tvalue_newlines hw ht
        · rintro ⟨a, b, hab⟩
          rcases List.eq_nil_or_concat b with rfl | ⟨b', x, rfl⟩
          · rw [List.append_nil] at hab
            have : a ++ c!"\r\n" = (a ++ ['\r']) ++ ['\n'] := by simp
            rw [this] at hab
            have := List.append_inj_left' hab rfl
            rw [← this] at hl
            simp at hl
          · rw [List.concat_eq_append, ← List.append_assoc] at hab
            have := List.append_inj_left' hab rfl
            exact hcr ⟨a, b', this⟩
  · intro l limit hl
    obtain ⟨l0, hn0, -, hm0, hf0⟩ := C52_find h hws hdir hd d
    have hd' : look (Dict.set s (base ++ ws ++ [natStr d ++ c!"=" ++ t]) (.file (utf8 (content ++ c!"\n")))) (base ++ ws) = some .dir := by
      rw [look_set hnil, if_neg]
      · exact hd
      · intro hc
        have := congrArg List.length hc
        simp at this
    obtain ⟨l1, hn1, -, hm1, hf1⟩ := C52_find hwf' hws hdir hd' d
    rw [hf0] at hl
    split at hl
    · cases hl
    · rename_i hlen
      cases hl
      have hperm : l1.Perm (t :: l) := by
        rw [List.perm_ext_iff_of_nodup hn1]
        · intro x
          rw [hm1, List.mem_cons, hm0, look_set hnil]
          by_cases hx : x = t
          · subst hx; simp
          · rw [if_neg]
            · simp [hx]
            · intro hc
              have := List.append_cancel_left hc
              have := List.cons.inj this
              exact hx (List.append_cancel_left this.1)
        · rw [List.nodup_cons]
          refine ⟨?_, hn0⟩
          rw [hm0]
          exact fun hc => hc hnew
      refine ⟨l1, ?_, hperm⟩
      rw [hf1, if_neg]
      have := hperm.length_eq
      simp at this
      omega

/-- The class `\w` on ASCII. -/
def wordAscii (c : Char) : Bool := c.isAlphanum || c = '_'

theorem wordAscii_class : WordClass wordAscii := fun _ _ => rfl

/-- C52 fails for a text with a carriage return before a newline, and for a blank one: the file
written is refused by the check. -/
theorem C52_violated :
    (∃ s', run (namasteWrite wordAscii [] 0 c!"a\r\nb" []) [] = (s', .ok ()) ∧
      findNamastes s' [] 0 [] 10 = .ok [c!"a__b"] ∧
      namasteContentOk wordAscii s' [] 0 c!"a__b" [] = .ok false) ∧
    (∃ s', run (namasteWrite wordAscii [] 0 c!" " []) [] = (s', .ok ()) ∧
      findNamastes s' [] 0 [] 10 = .ok [[]] ∧ namasteContentOk wordAscii s' [] 0 [] [] = .ok false) := by
  refine ⟨⟨_, rfl, ?_, ?_⟩, ⟨_, rfl, ?_, ?_⟩⟩ <;> decide +kernel

example : ∃ s', run (namasteWrite wordAscii [c!"o"] 0 c!"ocfl_object_1.1" []) [([c!"o"], .dir)] = (s', .ok ()) ∧
    namasteCheck wordAscii s' [c!"o"] 0 c!"ocfl_object_1.1" [] = .ok () := by
  have hwf : FS.WF [([c!"o"], Node.dir)] := ⟨by decide, by decide, by decide, by decide⟩
  obtain ⟨s', h1, _, _, h2, _⟩ := C52_partial wordAscii_class hwf (base := [c!"o"]) (ws := []) (dir := []) (by decide) (Or.inl rfl)
    (by decide) 0 (content := c!"ocfl_object_1.1") (t := c!"ocfl_object_1.1") (isTvalue_iff.mpr (by decide +kernel))
    ⟨'o', by decide, by unfold Blank; decide⟩ (by decide +kernel) (by decide +kernel)
  exact ⟨s', h1, h2⟩

/-! ## C64 -/

theorem matchVersionNumber_isSome {s : Str} : (matchVersionNumber s).isSome = true ↔
    ∃ a b nl, s = a ++ '.' :: b ++ nl ∧ a ≠ [] ∧ b ≠ [] ∧ (∀ c ∈ a, isDigit c = true) ∧
      (∀ c ∈ b, isDigit c = true) ∧ (nl = [] ∨ nl = ['\n']) := by
  unfold matchVersionNumber
  dsimp only
  constructor
  · intro h
    have hs := List.takeWhile_append_dropWhile (p := isDigit) (l := s)
    split at h
    · rename_i r hr
      split at h
      · rename_i hc
        have hr' := List.takeWhile_append_dropWhile (p := isDigit) (l := r)
        refine ⟨s.takeWhile isDigit, r.takeWhile isDigit, r.dropWhile isDigit, ?_, hc.1, hc.2.1,
          fun c hc => List.mem_takeWhile_imp hc, fun c hc => List.mem_takeWhile_imp hc, atDollar_iff.mp hc.2.2⟩
        rw [List.append_assoc, List.cons_append, hr', ← hr, hs]
      · cases h
    · cases h
  · rintro ⟨a, b, nl, rfl, ha, hb, hda, hdb, hnl⟩
    have hdot : isDigit '.' = false := by decide
    have e1 : (a ++ '.' :: b ++ nl).takeWhile isDigit = a := by
      rw [List.append_assoc, List.takeWhile_append_of_pos hda, List.cons_append, List.takeWhile_cons, hdot]
      simp
    have e2 : (a ++ '.' :: b ++ nl).dropWhile isDigit = '.' :: (b ++ nl) := by
      rw [List.append_assoc, List.dropWhile_append_of_pos hda, List.cons_append, List.dropWhile_cons, hdot]
      simp
    have hnl' : nl.takeWhile isDigit = [] ∧ nl.dropWhile isDigit = nl := by
      rcases hnl with rfl | rfl
      · simp
      · have : isDigit '\n' = false := by decide
        simp [this]
    rw [e1, e2]
    simp only []
    rw [List.takeWhile_append_of_pos hdb, List.dropWhile_append_of_pos hdb, hnl'.1, hnl'.2, List.append_nil,
      if_pos ⟨ha, hb, atDollar_iff.mpr hnl⟩]
    rfl

theorem declares_iff {kind t : Str} :
    (startsWith t kind = true ∧ (matchVersionNumber (t.drop kind.length)).isSome = true) ↔ Declares kind t := by
  rw [matchVersionNumber_isSome, startsWith_iff]
  unfold Declares
  constructor
  · rintro ⟨⟨r, rfl⟩, a, b, nl, h, hrest⟩
    rw [List.drop_left] at h
    exact ⟨a, b, nl, by rw [h]; simp, hrest⟩
  · rintro ⟨a, b, nl, rfl, hrest⟩
    refine ⟨⟨a ++ '.' :: b ++ nl, by simp⟩, a, b, nl, ?_, hrest⟩
    rw [List.append_assoc, List.append_assoc, List.drop_left, List.append_assoc]

theorem declares_disjoint {t : Str} (h1 : Declares c!"ocfl_object_" t) (h2 : Declares c!"ocfl_" t) : False := by
  obtain ⟨a, b, nl, rfl, -⟩ := h1
  obtain ⟨a', b', nl', h, hne, -, hd, -⟩ := h2
  cases a' with
  | nil => exact hne rfl
  | cons x a' =>
    have hx := hd x (by simp)
    simp only [List.cons_append, List.nil_append, List.append_assoc, List.cons.injEq, true_and] at h
    rw [← h.1] at hx
    revert hx
    decide

theorem declaredType_object {t : Str} : declaredType t = some .object ↔ Declares c!"ocfl_object_" t := by
  rw [← declares_iff]
  unfold declaredType
  by_cases h : startsWith t c!"ocfl_object_" = true ∧ (matchVersionNumber (t.drop 12)).isSome = true
  · rw [if_pos h]; simpa using h
  · rw [if_neg h]
    constructor
    · intro hc
      split at hc <;> cases hc
    · intro hc; exact absurd hc h

theorem declaredType_root {t : Str} : declaredType t = some .root ↔ Declares c!"ocfl_" t := by
  have hobj : (startsWith t c!"ocfl_object_" = true ∧ (matchVersionNumber (t.drop 12)).isSome = true) ↔ Declares c!"ocfl_object_" t :=
    declares_iff
  have hroot : (startsWith t c!"ocfl_" = true ∧ (matchVersionNumber (t.drop 5)).isSome = true) ↔ Declares c!"ocfl_" t :=
    declares_iff
  unfold declaredType
  by_cases h : startsWith t c!"ocfl_object_" = true ∧ (matchVersionNumber (t.drop 12)).isSome = true
  · rw [if_pos h]
    constructor
    · intro hc; cases hc
    · intro hc; exact absurd hc (fun hc => declares_disjoint (hobj.mp h) hc)
  · rw [if_neg h, ← hroot]
    split
    · rename_i h2; simpa using h2
    · rename_i h2
      constructor
      · intro hc; cases hc
      · intro hc; exact absurd hc h2

theorem declaredType_cases (t : Str) :
    declaredType t = none ∨ declaredType t = some .object ∨ declaredType t = some .root := by
  unfold declaredType
  split
  · right; left; rfl
  · split
    · right; right; rfl
    · left; rfl

/-- The first in a sorted list without repetitions. -/
theorem findSome_first {l : List Str} (hs : l.Pairwise (fun a b => strLe a b = true)) {f : Str → Option PathType} {v : PathType} :
    l.findSome? f = some v ↔ ∃ t ∈ l, f t = some v ∧ ∀ t' ∈ l, f t' ≠ none → strLe t t' = true := by
  induction l with
  | nil => simp
  | cons x l ih =>
    rw [List.pairwise_cons] at hs
    rw [List.findSome?_cons]
    cases hx : f x with
    | some w =>
      dsimp only
      constructor
      · intro h
        refine ⟨x, by simp, by rw [hx, h], ?_⟩
        intro t' ht' _
        rcases List.mem_cons.mp ht' with rfl | h'
        · exact (strLe_total _ _).elim id id
        · exact hs.1 t' h'
      · rintro ⟨t, ht, hf, hle⟩
        rcases List.mem_cons.mp ht with rfl | h'
        · rw [← hx, hf]
        · have h1 := hle x (by simp) (by rw [hx]; simp)
          have := strLe_antisymm _ _ h1 (hs.1 t h')
          rw [← hx, ← this, hf]
    | none =>
      dsimp only
      rw [ih hs.2]
      constructor
      · rintro ⟨t, ht, hf, hle⟩
        refine ⟨t, by simp [ht], hf, ?_⟩
        intro t' ht' hn
        rcases List.mem_cons.mp ht' with rfl | h'
        · exact absurd hx hn
        · exact hle t' h' hn
      · rintro ⟨t, ht, hf, hle⟩
        rcases List.mem_cons.mp ht with rfl | h'
        · rw [hx] at hf; cases hf
        · exact ⟨t, h', hf, fun t' ht' hn => hle t' (by simp [ht']) hn⟩

/-- The path type of a directory with at most ten entries `0=...`: decided by the first (in the
order of code points) that is a declaration at all. -/
theorem C64_directory {s : FS} (h : s.WF) {cwd : Path} {path : Str} {p : Path} (hp : absComps cwd path = p)
    (hd : look s p = some .dir) {l : List Str} (hl : l.Nodup) (hmem : ∀ t, t ∈ l ↔ look s (p ++ [c!"0=" ++ t]) ≠ none)
    (hlen : l.length ≤ 10) :
    ∃ r, findPathType cwd path s = .ok r ∧
      (r = .object ↔ ∃ t ∈ l, Declares c!"ocfl_object_" t ∧
        ∀ t' ∈ l, Declares c!"ocfl_object_" t' ∨ Declares c!"ocfl_" t' → strLe t t' = true) ∧
      (r = .root ↔ ∃ t ∈ l, Declares c!"ocfl_" t ∧
        ∀ t' ∈ l, Declares c!"ocfl_object_" t' ∨ Declares c!"ocfl_" t' → strLe t t' = true) ∧
      r ≠ .file := by
  obtain ⟨l', hn', hs', hm', hf'⟩ := C52_find h (base := p) (ws := []) (dir := []) (by simp) (Or.inl rfl) (by simpa using hd) 0
  have hperm : l'.Perm l := by
    rw [List.perm_ext_iff_of_nodup hn' hl]
    intro t
    rw [hm', hmem, List.append_nil]
    rfl
  have hsome : ∀ t, (declaredType t ≠ none ↔ Declares c!"ocfl_object_" t ∨ Declares c!"ocfl_" t) := by
    intro t
    rw [← declaredType_object, ← declaredType_root]
    rcases declaredType_cases t with h | h | h <;> simp [h]
  refine ⟨(l'.findSome? declaredType).getD .other, ?_, ?_, ?_, ?_⟩
  · unfold findPathType fswOpen
    dsimp only
    rw [hp, if_pos (by simp [isdir, hd])]
    dsimp only
    unfold directoryType
    rw [hf', if_neg (by have := hperm.length_eq; omega)]
  · have key := findSome_first hs' (f := declaredType) (v := .object)
    simp only [declaredType_object, hsome, hperm.mem_iff] at key
    rw [← key]
    cases hx : l'.findSome? declaredType <;> simp
  · have key := findSome_first hs' (f := declaredType) (v := .root)
    simp only [declaredType_root, hsome, hperm.mem_iff] at key
    rw [← key]
    cases hx : l'.findSome? declaredType <;> simp
  · cases hx : l'.findSome? declaredType with
    | none => simp
    | some v =>
      obtain ⟨t, -, ht, -⟩ := (findSome_first hs').mp hx
      rcases declaredType_cases t with h | h | h <;> rw [h] at ht <;> cases ht <;> simp

/-- C64 (partial): the answer for a directory with a single entry `0=...` or none. Missing: with
several declarations the first one decides, with more than ten entries the function raises (see
`C64_violated`). -/
theorem C64_partial {s : FS} (h : s.WF) {cwd : Path} {path : Str} {p : Path} (hp : absComps cwd path = p)
    (hd : look s p = some .dir) {single : Option Str}
    (hmem : ∀ t, single = some t ↔ look s (p ++ [c!"0=" ++ t]) ≠ none) :
    ∃ r, findPathType cwd path s = .ok r ∧
      (r = .object ↔ ∃ t, single = some t ∧ Declares c!"ocfl_object_" t) ∧
      (r = .root ↔ ∃ t, single = some t ∧ Declares c!"ocfl_" t) ∧ r ≠ .file := by
  obtain ⟨r, h1, h2, h3, h4⟩ := C64_directory h hp hd (l := single.toList) (by cases single <;> simp)
    (by intro t; rw [← hmem]; simp) (by cases single <;> simp)
  refine ⟨r, h1, ?_, ?_, h4⟩
  · rw [h2]
    constructor
    · rintro ⟨t, ht, hdec, -⟩
      exact ⟨t, by simpa using ht, hdec⟩
    · rintro ⟨t, rfl, hdec⟩
      exact ⟨t, by simp, hdec, by intro t' ht' _; simp at ht'; subst ht'; exact (strLe_total _ _).elim id id⟩
  · rw [h3]
    constructor
    · rintro ⟨t, ht, hdec, -⟩
      exact ⟨t, by simpa using ht, hdec⟩
    · rintro ⟨t, rfl, hdec⟩
      exact ⟨t, by simp, hdec, by intro t' ht' _; simp at ht'; subst ht'; exact (strLe_total _ _).elim id id⟩

theorem foldl_normStep_filter (acc : List Str) (l : List Str) :
    l.foldl normStep acc = (l.filter (· ≠ [])).foldl normStep acc := by
  induction l generalizing acc with
  | nil => rfl
  | cons w l ih =>
    rw [List.foldl_cons, ih, List.filter_cons]
    by_cases hw : w = []
    · subst hw; simp [normStep]
    · rw [if_pos (by simpa using hw), List.foldl_cons]

theorem foldl_namesOf (acc : List Str) (s : Str) : (splitOn '/' s).foldl normStep acc = (namesOf s).foldl normStep acc := by
  rw [foldl_normStep_filter]
  rfl

theorem split_comps (cwd : Path) {path : Str} (hf : SafeName (osPathSplit path).2) :
    absComps cwd path = absComps cwd (if (osPathSplit path).1 = [] then c!"." else (osPathSplit path).1) ++ [(osPathSplit path).2] := by
  have hone : ∀ acc : List Str, ∀ t : Str, SafeName t → [t].foldl normStep acc = acc ++ [t] := by
    intro acc t ht
    exact foldl_normStep (by simpa using ht) acc
  unfold absComps
  rw [foldl_namesOf, foldl_namesOf]
  rcases osPathSplit_cases path with ⟨h1, h2⟩ | ⟨n, t, hn, ht, rfl, h2⟩ | ⟨h, n, t, hn, ht, hne, hlast, rfl, h2⟩
  · rw [h2] at hf ⊢
    dsimp only at hf ⊢
    have e1 : namesOf path = [path] := by
      have := namesOf_replicate 0 path h1
      rw [if_neg hf.1] at this
      simpa using this
    have e2 : startsWith path c!"/" = false := by
      rw [Bool.eq_false_iff]
      intro hc
      obtain ⟨r, rfl⟩ := startsWith_iff.mp hc
      exact h1 (by simp)
    rw [e1, e2, hone _ _ hf]
    rfl
  · rw [h2] at hf ⊢
    dsimp only at hf ⊢
    obtain ⟨m, rfl⟩ : ∃ m, n = m + 1 := ⟨n - 1, by omega⟩
    have e1 : startsWith (List.replicate (m + 1) '/' ++ t) c!"/" = true := startsWith_iff.mpr ⟨List.replicate m '/' ++ t, rfl⟩
    have e2 : startsWith (List.replicate (m + 1) '/') c!"/" = true := startsWith_iff.mpr ⟨List.replicate m '/', rfl⟩
    have e3 : namesOf (List.replicate (m + 1) '/') = [] := by
      have := namesOf_replicate (m + 1) [] (by simp)
      simpa using this
    rw [if_neg (c := List.replicate (m + 1) '/' = []) (by simp), namesOf_replicate _ _ ht, if_neg hf.1, if_pos e1, if_pos e2, e3,
      hone _ _ hf]
    rfl
  · rw [h2] at hf ⊢
    dsimp only at hf ⊢
    rw [if_neg hne, namesOf_append _ _ _ hn ht, if_neg hf.1, List.foldl_append, hone _ _ hf]
    congr 2
    cases h with
    | nil => exact absurd rfl hne
    | cons a h => simp [startsWith]

/-- C64, files: for a path that ends in a name the answer is "file" exactly for files. -/
theorem C64_file {s : FS} (h : s.WF) {cwd : Path} {path : Str} (hf : SafeName (osPathSplit path).2) :
    findPathType cwd path s = .ok .file ↔ ∃ b, look s (absComps cwd path) = some (.file b) := by
  have hsplit := split_comps cwd hf
  by_cases hd : isdir s (absComps cwd path) = true
  · have hd' : look s (absComps cwd path) = some .dir := by simpa [isdir] using hd
    constructor
    · intro hr
      unfold findPathType fswOpen at hr
      dsimp only at hr
      rw [if_pos hd] at hr
      dsimp only at hr
      unfold directoryType at hr
      split at hr
      · cases hr
      · rename_i tv htv
        exfalso
        cases hx : tv.findSome? declaredType with
        | none => rw [hx] at hr; cases hr
        | some v =>
          rw [hx] at hr
          obtain ⟨t, -, ht⟩ := List.exists_of_findSome?_eq_some hx
          simp only [Option.getD_some, Except.ok.injEq] at hr
          subst hr
          rcases declaredType_cases t with h | h | h <;> rw [h] at ht <;> cases ht
    · rintro ⟨b, hb⟩
      rw [hd'] at hb; cases hb
  · unfold findPathType fswOpen
    dsimp only
    rw [if_neg hd]
    dsimp only
    generalize absComps cwd (if (osPathSplit path).1 = [] then c!"." else (osPathSplit path).1) = par at hsplit ⊢
    rw [hsplit]
    by_cases hpar : isdir s par = true
    · rw [if_pos hpar]
      dsimp only
      rw [resolve_name _ hf]
      cases hl : look s (par ++ [(osPathSplit path).2]) with
      | none => simp [exists_, hl]
      | some n =>
        cases n with
        | dir => simp [exists_, isdir, hl]
        | file b => simp [exists_, isdir, hl]
    · rw [if_neg hpar]
      constructor
      · intro hc; cases hc
      · rintro ⟨b, hb⟩
        have := look_parent h hb
        rw [List.dropLast_concat] at this
        exact absurd (by simpa [isdir] using this) hpar

/-- C64 as stated fails: with two declarations one of them decides, and eleven entries `0=...` make
the function raise. -/
theorem C64_violated :
    findPathType [] c!"/" [([c!"0=ocfl_object_1.1"], .file []), ([c!"0=ocfl_1.1"], .file [])] = .ok .root ∧
    findPathType [] c!"/" [([c!"0=ocfl_object_1.1"], .file []), ([c!"0=a"], .file []), ([c!"0=b"], .file []),
      ([c!"0=c"], .file []), ([c!"0=d"], .file []), ([c!"0=e"], .file []), ([c!"0=f"], .file []), ([c!"0=g"], .file []),
      ([c!"0=h"], .file []), ([c!"0=i"], .file []), ([c!"0=j"], .file [])] = .error .namasteException := by
  constructor <;> decide +kernel

example : findPathType [c!"r"] c!"b/../x.txt" [([c!"r"], .dir), ([c!"r", c!"x.txt"], .file [])] = .ok .file := by decide +kernel

example : ∃ r, findPathType [] c!"/r" [([c!"r"], .dir), ([c!"r", c!"0=ocfl_object_1.0"], .file [])] = .ok r ∧ r = .object := by
  have hwf : FS.WF [([c!"r"], Node.dir), ([c!"r", c!"0=ocfl_object_1.0"], .file [])] := ⟨by decide, by decide, by decide, by decide⟩
  obtain ⟨r, h1, h2, -⟩ := C64_partial hwf (cwd := []) (path := c!"/r") (p := [c!"r"]) (by decide) (by decide) (single := some c!"ocfl_object_1.0")
    (by
      intro t
      rw [← FS.mem_keys_look (by simp)]
      simp [Dict.keys, eq_comm])
  exact ⟨r, h1, h2.mpr ⟨_, rfl, c!"1", c!"0", [], rfl, by decide, by decide, by decide, by decide, Or.inl rfl⟩⟩

end Ocfl
