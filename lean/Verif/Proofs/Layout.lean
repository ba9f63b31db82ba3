import Verif.Proofs.Utf8
import Verif.Py.StrLemmas
import Verif.Spec.Layout
import Mathlib.Tactic.ByContra
import Mathlib.Tactic.Conv

/-! # Lemmas about the layouts -/

namespace Ocfl
open Spec

/-- A path component: not empty and without separator. -/
def IsComp (w : Str) : Prop := w ≠ [] ∧ '/' ∉ w

theorem SafeName.isComp {w : Str} (h : SafeName w) : IsComp w := ⟨h.1, h.2.2.2⟩

theorem osPathJoin_nil {b : Str} : osPathJoin [] b = b := by
  unfold osPathJoin
  split <;> simp

theorem osPathJoin_of {a b : Str} (ha : a ≠ []) (ha' : endsWith a c!"/" = false) (hb : b.head? ≠ some '/') :
    osPathJoin a b = a ++ '/' :: b := by
  unfold osPathJoin
  split
  · simp at hb
  · simp [ha, ha']

theorem endsWith_slash_append {a b : Str} (h : b ≠ []) : endsWith (a ++ b) c!"/" = endsWith b c!"/" := by
  unfold endsWith
  rw [Bool.eq_iff_iff, List.isSuffixOf_iff_suffix, List.isSuffixOf_iff_suffix]
  constructor
  · rintro ⟨t, ht⟩
    have h1 := congrArg List.getLast? ht
    rw [List.getLast?_append, List.getLast?_append] at h1
    obtain ⟨x, hx⟩ : ∃ x, b.getLast? = some x := by
      cases hb : b.getLast? with
      | none => simp at hb; exact absurd hb h
      | some x => exact ⟨x, rfl⟩
    rw [hx] at h1
    simp at h1
    subst h1
    obtain ⟨l, rfl⟩ := List.getLast?_eq_some_iff.mp hx
    exact ⟨l, rfl⟩
  · rintro ⟨t, ht⟩
    exact ⟨a ++ t, by rw [List.append_assoc, ht]⟩

theorem endsWith_slash_of_not_mem {w : Str} (h : '/' ∉ w) : endsWith w c!"/" = false := by
  rw [Bool.eq_false_iff]
  intro hc
  obtain ⟨t, rfl⟩ := endsWith_iff.mp hc
  simp at h

theorem joinWith_ne_nil {ws : List Str} (hne : ws ≠ []) (h : ∀ w ∈ ws, IsComp w) : joinWith '/' ws ≠ [] := by
  cases ws with
  | nil => exact absurd rfl hne
  | cons w ws =>
    have := (h w (by simp)).1
    cases ws with
    | nil => exact this
    | cons w' ws => simp [joinWith, this]

theorem joinWith_not_slash {ws : List Str} (hne : ws ≠ []) (h : ∀ w ∈ ws, IsComp w) :
    endsWith (joinWith '/' ws) c!"/" = false := by
  induction ws with
  | nil => exact absurd rfl hne
  | cons w ws ih =>
    cases ws with
    | nil => exact endsWith_slash_of_not_mem (h w (by simp)).2
    | cons w' ws =>
      rw [joinWith_cons _ _ (by simp)]
      have h' : ∀ x ∈ w' :: ws, IsComp x := fun x hx => h x (by simp [List.mem_cons.mp hx])
      have : w ++ '/' :: joinWith '/' (w' :: ws) = (w ++ ['/']) ++ joinWith '/' (w' :: ws) := by simp
      rw [this, endsWith_slash_append (joinWith_ne_nil (by simp) h')]
      exact ih (by simp) h'

/-- Joining one more component. -/
theorem osPathJoin_joinWith {ws : List Str} {b : Str} (h : ∀ w ∈ ws, IsComp w) (hb : '/' ∉ b) :
    osPathJoin (joinWith '/' ws) b = joinWith '/' (ws ++ [b]) := by
  by_cases hne : ws = []
  · subst hne; simp [joinWith, osPathJoin_nil]
  · rw [joinWith_append hne (by simp), osPathJoin_of (joinWith_ne_nil hne h) (joinWith_not_slash hne h)]
    · rfl
    · cases b with
      | nil => simp
      | cons c b => simp; rintro rfl; simp at hb

theorem foldl_osPathJoin (ys : List Str) : ∀ (ws : List Str), (∀ w ∈ ws, IsComp w) → (∀ w ∈ ys, IsComp w) →
    ys.foldl osPathJoin (joinWith '/' ws) = joinWith '/' (ws ++ ys) := by
  induction ys with
  | nil => simp
  | cons y ys ih =>
    intro ws h1 h2
    have hy := h2 y (by simp)
    rw [List.foldl_cons, osPathJoin_joinWith h1 hy.2, ih]
    · simp
    · intro w hw
      rcases List.mem_append.mp hw with hw | hw
      · exact h1 w hw
      · simp at hw; subst hw; exact hy
    · exact fun w hw => h2 w (by simp [hw])

/-- `os.path.join` of components. -/
theorem join_components {ws : List Str} (h : ∀ w ∈ ws, IsComp w) :
    ws.tail.foldl osPathJoin (ws.headD []) = joinWith '/' ws := by
  cases ws with
  | nil => rfl
  | cons w ws =>
    have := foldl_osPathJoin ws [w] (by intro x hx; simp at hx; subst hx; exact h _ (by simp))
      (fun x hx => h x (by simp [hx]))
    simpa [joinWith] using this

/-! ## The hashed layout -/

theorem tuplePath_eq (digest : Str) (ts : Nat) (hts : 0 < ts) (hd : '/' ∉ digest) :
    ∀ n i ws, (∀ w ∈ ws, IsComp w) → (i + n) * ts ≤ digest.length →
    ∃ ps, Layout.tuplePath digest ts n i (joinWith '/' ws) = joinWith '/' (ws ++ ps) ∧ ps.length = n ∧
      (∀ w ∈ ps, w.length = ts ∧ '/' ∉ w) ∧ ∃ rest, digest.drop (i * ts) = ps.flatten ++ rest := by
  intro n
  induction n with
  | zero => intro i ws _ _; exact ⟨[], by simp [Layout.tuplePath], rfl, by simp, _, rfl⟩
  | succ n ih =>
    intro i ws hws hlen
    have hlen' : (i + 1 + n) * ts ≤ digest.length := by
      have : i + 1 + n = i + (n + 1) := by omega
      rw [this]; exact hlen
    have h1 : (i + 1) * ts ≤ digest.length := by
      have : (i + 1) * ts ≤ (i + 1 + n) * ts := Nat.mul_le_mul_right _ (by omega)
      omega
    have h1' : i * ts + ts ≤ digest.length := by rw [Nat.succ_mul] at h1; exact h1
    let t := (digest.drop (i * ts)).take ts
    have ht : t.length = ts := by simp [t]; omega
    have hts' : '/' ∉ t := fun hm => hd (List.mem_of_mem_drop (List.mem_of_mem_take hm))
    have htc : IsComp t := ⟨by intro e; rw [e] at ht; simp at ht; omega, hts'⟩
    obtain ⟨ps, h2, h3, h4, rest, h5⟩ := ih (i + 1) (ws ++ [t])
      (by
        intro w hw
        rcases List.mem_append.mp hw with hw | hw
        · exact hws w hw
        · simp at hw; subst hw; exact htc) hlen'
    refine ⟨t :: ps, ?_, by simp [h3], ?_, rest, ?_⟩
    · rw [Layout.tuplePath, osPathJoin_joinWith hws hts']
      rw [h2]; simp
    · intro w hw
      rcases List.mem_cons.mp hw with rfl | hw
      · exact ⟨ht, hts'⟩
      · exact h4 w hw
    · rw [List.flatten_cons, List.append_assoc, ← h5]
      rw [Nat.succ_mul, ← List.drop_drop, List.take_append_drop]

theorem tuplePath_zero (digest : Str) (ts i : Nat) (p : Str) : Layout.tuplePath digest ts 0 i p = p := rfl

/-- The characters of an encapsulation directory. -/
def isEncChar (c : Char) : Bool := Layout.isPlain c || c = '%'

theorem hexLower_enc : ∀ n, n < 16 → isEncChar (hexDigitLower n) = true := by decide

theorem pctLower_enc {b : UInt8} {c : Char} (h : c ∈ Layout.pctLower b) : isEncChar c = true := by
  have hb : b.toNat < 256 := b.toNat_lt
  unfold Layout.pctLower at h
  simp only [List.mem_cons, List.not_mem_nil, or_false] at h
  rcases h with rfl | rfl | rfl
  · decide
  · exact hexLower_enc _ (by omega)
  · exact hexLower_enc _ (by omega)

theorem encapsulate_enc {s : Str} {c : Char} (h : c ∈ Layout.encapsulate s) : isEncChar c = true := by
  unfold Layout.encapsulate at h
  rw [List.mem_flatMap] at h
  obtain ⟨x, _, h⟩ := h
  split at h
  · rename_i hp
    simp at h; subst h
    unfold isEncChar; rw [hp]; rfl
  · unfold Layout.percentEncode at h
    rw [List.mem_flatMap] at h
    obtain ⟨b, _, h⟩ := h
    exact pctLower_enc h

theorem encapsulate_decodes (s : Str) : unquoteToBytes (Layout.encapsulate s) = utf8 s := by
  unfold Layout.encapsulate Layout.percentEncode
  exact unquote_encoded _ _ unquote_pctsLower (by decide) s

theorem encapsulate_inj {s t : Str} (h : Layout.encapsulate s = Layout.encapsulate t) : s = t := by
  apply utf8_inj
  rw [← encapsulate_decodes, h, encapsulate_decodes]

theorem encapsulate_eq_nil {s : Str} (h : Layout.encapsulate s = []) : s = [] :=
  encapsulate_inj (h.trans rfl)

theorem isEncChar_safe {c : Char} (h : isEncChar c = true) : c ≠ '/' ∧ c ≠ '.' := by
  constructor <;> (rintro rfl; revert h; decide)

theorem hexLower_mem {c : Char} (h : c ∈ c!"0123456789abcdef") : isEncChar c = true ∧ asciiLower c = c := by
  revert h c
  decide

theorem safeName_of_enc {w : Str} (hne : w ≠ []) (h : ∀ c ∈ w, isEncChar c = true) : SafeName w := by
  refine ⟨hne, ?_, ?_, ?_⟩
  · rintro rfl; exact (isEncChar_safe (h '.' (by simp))).2 rfl
  · rintro rfl; exact (isEncChar_safe (h '.' (by simp))).2 rfl
  · intro hm; exact (isEncChar_safe (h _ hm)).1 rfl

/-! ## Nesting -/

theorem nestedIn_iff {ps qs : List Str} (hp : ps ≠ []) (hq : qs ≠ []) (h1 : ∀ w ∈ ps, '/' ∉ w) (h2 : ∀ w ∈ qs, '/' ∉ w) :
    NestedIn (joinWith '/' ps) (joinWith '/' qs) ↔ ∃ rs, rs ≠ [] ∧ ps = qs ++ rs := by
  constructor
  · rintro ⟨rest, h⟩
    refine ⟨splitOn '/' rest, splitOn_ne_nil _ _, ?_⟩
    have := congrArg (splitOn '/') h
    rwa [splitOn_joinWith hp h1, splitOn_append, splitOn_joinWith hq h2] at this
  · rintro ⟨rs, hr, rfl⟩
    exact ⟨joinWith '/' rs, joinWith_append hq hr⟩

/-! ## The tuple tree layout -/

theorem segments_fuel {ts : Nat} (hts : 0 < ts) : ∀ (f g : Nat) (s : Str), s.length ≤ f → s.length ≤ g →
    Layout.segments ts f s = Layout.segments ts g s := by
  intro f
  induction f with
  | zero =>
    intro g s h _
    cases g with
    | zero => rfl
    | succ g => rw [Layout.segments, Layout.segments, if_neg (by omega)]
  | succ f ih =>
    intro g s h hg
    by_cases hl : s.length > ts
    · cases g with
      | zero => omega
      | succ g =>
        rw [Layout.segments, if_pos hl, Layout.segments, if_pos hl]
        rw [ih g _ (by rw [List.length_drop]; omega) (by rw [List.length_drop]; omega)]
    · rw [Layout.segments, if_neg hl]
      cases g with
      | zero => rfl
      | succ g => rw [Layout.segments, if_neg hl]

/-- The segments of `e`. -/
def segs (ts : Nat) (e : Str) : List Str := Layout.segments ts e.length e

theorem segs_of_le {ts : Nat} {e : Str} (h : e.length ≤ ts) : segs ts e = [e] := by
  unfold segs
  cases hn : e.length with
  | zero => rfl
  | succ n => rw [Layout.segments, if_neg (by omega)]

theorem segs_of_gt {ts : Nat} (hts : 0 < ts) {e : Str} (h : e.length > ts) :
    segs ts e = e.take ts :: segs ts (e.drop ts) := by
  unfold segs
  obtain ⟨n, hn⟩ : ∃ n, e.length = n + 1 := ⟨e.length - 1, by omega⟩
  rw [hn, Layout.segments, if_pos h]
  rw [segments_fuel hts n (e.drop ts).length _ (by rw [List.length_drop]; omega) (Nat.le_refl _)]

theorem segs_induct {ts : Nat} (hts : 0 < ts) {P : Str → Prop} (h1 : ∀ e, e.length ≤ ts → P e)
    (h2 : ∀ e, e.length > ts → P (e.drop ts) → P e) (e : Str) : P e := by
  have : ∀ n, ∀ e : Str, e.length ≤ n → P e := by
    intro n
    induction n with
    | zero => intro e he; exact h1 e (by omega)
    | succ n ih =>
      intro e he
      by_cases h : e.length > ts
      · exact h2 e h (ih _ (by rw [List.length_drop]; omega))
      · exact h1 e (by omega)
  exact this _ e (Nat.le_refl _)

theorem segs_flatten {ts : Nat} (hts : 0 < ts) (e : Str) : (segs ts e).flatten = e := by
  refine segs_induct hts (P := fun e => (segs ts e).flatten = e) ?_ ?_ e
  · intro e h; rw [segs_of_le h]; simp
  · intro e h ih; rw [segs_of_gt hts h, List.flatten_cons, ih, List.take_append_drop]

theorem segs_ne_nil {ts : Nat} (hts : 0 < ts) (e : Str) : segs ts e ≠ [] := by
  by_cases h : e.length > ts
  · rw [segs_of_gt hts h]; simp
  · rw [segs_of_le (by omega)]; simp

theorem segs_length {ts : Nat} (hts : 0 < ts) {e : Str} (hne : e ≠ []) :
    ∀ w ∈ segs ts e, w ≠ [] ∧ w.length ≤ ts := by
  refine segs_induct hts (P := fun e => e ≠ [] → ∀ w ∈ segs ts e, w ≠ [] ∧ w.length ≤ ts) ?_ ?_ e hne
  · intro e h hne w hw
    rw [segs_of_le h] at hw
    simp at hw; subst hw; exact ⟨hne, h⟩
  · intro e h ih hne w hw
    rw [segs_of_gt hts h] at hw
    rcases List.mem_cons.mp hw with rfl | hw
    · have : (e.take ts).length = ts := by rw [List.length_take]; omega
      exact ⟨by intro h; rw [h] at this; simp at this; omega, by omega⟩
    · refine ih ?_ w hw
      intro h0
      have := congrArg List.length h0
      rw [List.length_drop] at this; simp at this; omega

theorem segs_mem {ts : Nat} (hts : 0 < ts) {e w : Str} (hw : w ∈ segs ts e) {c : Char} (hc : c ∈ w) : c ∈ e := by
  rw [← segs_flatten hts e]
  exact List.mem_flatten.mpr ⟨w, hw, hc⟩

/-! ## UUIDs -/

theorem group4_iff {s g r : Str} : Layout.group4 s = some (g, r) ↔
    s = g ++ r ∧ g.length = 4 ∧ ∀ c ∈ g, Layout.isUuidChar c = true := by
  unfold Layout.group4
  constructor
  · intro h
    split at h
    · rename_i h'
      simp only [Option.some.injEq, Prod.mk.injEq] at h
      obtain ⟨rfl, rfl⟩ := h
      simp only [Bool.and_eq_true, decide_eq_true_eq, List.all_eq_true] at h'
      exact ⟨(List.take_append_drop _ _).symm, h'.1, h'.2⟩
    · cases h
  · rintro ⟨rfl, h1, h2⟩
    have e1 : (g ++ r).take 4 = g := by rw [← h1]; simp
    have e2 : (g ++ r).drop 4 = r := by rw [← h1]; simp
    rw [e1, e2, if_pos]
    simp only [Bool.and_eq_true, decide_eq_true_eq, List.all_eq_true]
    exact ⟨h1, h2⟩

theorem hyphen_iff {s r : Str} : Layout.hyphen s = some r ↔ s = '-' :: r := by
  unfold Layout.hyphen
  split
  · simp
  · rename_i h
    simp
    intro e; exact h _ e

/-- A group of four characters the pattern accepts. -/
def Group (g : Str) : Prop := g.length = 4 ∧ ∀ c ∈ g, Layout.isUuidChar c = true

theorem matchUuid_iff {s : Str} {gs : List Str} : Layout.matchUuid s = some gs ↔
    ∃ g1 g2 g3 g4 g5 g6 g7 g8 t, gs = [g1, g2, g3, g4, g5, g6, g7, g8] ∧ (∀ g ∈ gs, Group g) ∧
      s = g1 ++ (g2 ++ '-' :: (g3 ++ '-' :: (g4 ++ '-' :: (g5 ++ '-' :: (g6 ++ (g7 ++ (g8 ++ t))))))) ∧
      (t = [] ∨ t = ['\n']) := by
  unfold Layout.matchUuid
  simp only [Option.bind_eq_bind, Option.bind_eq_some_iff, Prod.exists, group4_iff, hyphen_iff]
  constructor
  · rintro ⟨g1, r1, ⟨rfl, a1, b1⟩, g2, r2, ⟨rfl, a2, b2⟩, r2', rfl, g3, r3, ⟨rfl, a3, b3⟩, r3', rfl, g4, r4,
      ⟨rfl, a4, b4⟩, r4', rfl, g5, r5, ⟨rfl, a5, b5⟩, r5', rfl, g6, r6, ⟨rfl, a6, b6⟩, g7, r7, ⟨rfl, a7, b7⟩,
      g8, r8, ⟨rfl, a8, b8⟩, h⟩
    split at h
    · rename_i ht
      simp only [Option.some.injEq] at h
      subst h
      refine ⟨g1, g2, g3, g4, g5, g6, g7, g8, r8, rfl, ?_, rfl, atDollar_iff.mp ht⟩
      intro g hg
      simp only [List.mem_cons, List.not_mem_nil, or_false] at hg
      rcases hg with rfl | rfl | rfl | rfl | rfl | rfl | rfl | rfl <;> exact ⟨by assumption, by assumption⟩
    · cases h
  · rintro ⟨g1, g2, g3, g4, g5, g6, g7, g8, t, rfl, hg, rfl, ht⟩
    have H : ∀ g ∈ [g1, g2, g3, g4, g5, g6, g7, g8], g.length = 4 ∧ ∀ c ∈ g, Layout.isUuidChar c = true := hg
    simp only [List.mem_cons, List.not_mem_nil, or_false, forall_eq_or_imp, forall_eq] at H
    obtain ⟨h1, h2, h3, h4, h5, h6, h7, h8⟩ := H
    refine ⟨g1, _, ⟨rfl, h1⟩, g2, _, ⟨rfl, h2⟩, _, rfl, g3, _, ⟨rfl, h3⟩, _, rfl, g4, _, ⟨rfl, h4⟩, _, rfl,
      g5, _, ⟨rfl, h5⟩, _, rfl, g6, _, ⟨rfl, h6⟩, g7, _, ⟨rfl, h7⟩, g8, t, ⟨rfl, h8⟩, ?_⟩
    rw [if_pos (atDollar_iff.mpr ht)]

theorem uuidChar_comp {c : Char} (h : Layout.isUuidChar c = true) : c ≠ '/' ∧ c ≠ '\n' ∧ c ≠ '.' ∧ c ≠ '-' := by
  refine ⟨?_, ?_, ?_, ?_⟩ <;> (rintro rfl; revert h; decide)

theorem group_safe {g : Str} (h : Group g) : SafeName g := by
  have hne : g ≠ [] := by intro e; have := h.1; rw [e] at this; simp at this
  refine ⟨hne, ?_, ?_, ?_⟩
  · rintro rfl; have := h.1; simp at this
  · rintro rfl; have := h.1; simp at this
  · intro hm; exact (uuidChar_comp (h.2 _ hm)).1 rfl

end Ocfl
