import Verif.Proofs.Layout
import Verif.Py.DictLemmas
import Verif.Py.Decimal
import Mathlib.Tactic.Tauto

/-!
# C45 - C49, C51: storage root layouts
-/

namespace Ocfl
open Spec

/-! ## C45: flat direct -/

/-- **C45** The flat direct layout accepts exactly the identifiers that can be used as one directory
name, and returns them unchanged. -/
theorem C45 (identifier p : Str) :
    Layout.flatDirect identifier = .ok p ↔ p = identifier ∧ SafeName identifier := by
  unfold Layout.flatDirect SafeName
  constructor
  · intro h
    split at h
    · cases h
    · rename_i hn
      simp only [Except.ok.injEq] at h
      simp only [not_or] at hn
      exact ⟨h.symm, hn⟩
  · rintro ⟨rfl, h⟩
    rw [if_neg]
    simp only [not_or]
    exact h

/-- **C45**, the consequence: two identifiers never share a path, and everything that is not
accepted is refused with a `LayoutException`. -/
theorem C45_injective {i j p : Str} (hi : Layout.flatDirect i = .ok p) (hj : Layout.flatDirect j = .ok p) :
    i = j := ((C45 i p).mp hi).1.symm.trans ((C45 j p).mp hj).1

theorem C45_refuses {i : Str} (h : ¬ SafeName i) : Layout.flatDirect i = .error .layoutException := by
  unfold Layout.flatDirect
  rw [if_pos]
  unfold SafeName at h
  by_cases h1 : i = []
  · exact Or.inl h1
  by_cases h2 : i = c!"."
  · exact Or.inr (Or.inl h2)
  by_cases h3 : i = c!".."
  · exact Or.inr (Or.inr (Or.inl h3))
  right; right; right
  by_contra h4
  exact h ⟨h1, h2, h3, h4⟩

example : Layout.flatDirect c!"ark:12345" = .ok c!"ark:12345" := (C45 _ _).mpr ⟨rfl, by decide⟩
example : Layout.flatDirect c!"a/b" = .error .layoutException := C45_refuses (by decide)

/-! ## C46: hashed n-tuple -/

theorem stringDigest_some {raw : Str → Bytes → Str} {alg : Str} {ts nt : Nat} (hv : ValidNTuple raw alg ts nt)
    (b : Bytes) : stringDigest raw alg b = some (raw alg b) := by
  unfold stringDigest
  rw [if_pos hv.1]

theorem map_lower_hex {raw : Str → Bytes → Str} (hraw : HexDigests raw) (alg : Str) (b : Bytes) :
    (raw alg b).map asciiLower = raw alg b := by
  conv_rhs => rw [← List.map_id (raw alg b)]
  apply List.map_congr_left
  intro c hc
  exact (hexLower_mem ((hraw alg b).1 c hc)).2

/-- The last component of a path of the hashed layout. -/
theorem encDir_safe {raw : Str → Bytes → Str} (hraw : HexDigests raw) (alg : Str) (b : Bytes) {i : Str} (hi : i ≠ []) :
    SafeName (Layout.encapsulationDirectory i (raw alg b)) := by
  unfold Layout.encapsulationDirectory
  have hne : Layout.encapsulate i ≠ [] := fun h => hi (encapsulate_eq_nil h)
  dsimp only
  split
  · apply safeName_of_enc
    · simp
    · intro c hc
      simp only [List.mem_append, List.mem_cons, List.not_mem_nil, or_false] at hc
      rcases hc with (hc | rfl) | hc
      · exact encapsulate_enc (List.mem_of_mem_take hc)
      · decide
      · exact (hexLower_mem ((hraw alg b).1 c hc)).1
  · exact safeName_of_enc hne (fun c hc => encapsulate_enc hc)

/-- The path of the hashed layout, component by component. -/
theorem hashNTuple_path {raw : Str → Bytes → Str} (hraw : HexDigests raw) {alg : Str} {ts nt : Nat}
    (hv : ValidNTuple raw alg ts nt) {i : Str} (hi : i ≠ []) :
    ∃ tuples, tuples.length = nt ∧ Cuts ts tuples (raw alg (utf8 i)) ∧
      (∀ w ∈ tuples ++ [Layout.encapsulationDirectory i (raw alg (utf8 i))], SafeName w) ∧
      Layout.hashNTuple raw alg ts nt i =
        .ok (joinWith '/' (tuples ++ [Layout.encapsulationDirectory i (raw alg (utf8 i))])) := by
  have hd : '/' ∉ raw alg (utf8 i) := by
    intro hm
    exact (isEncChar_safe (hexLower_mem ((hraw alg _).1 _ hm)).1).1 rfl
  have hE := encDir_safe hraw alg (utf8 i) hi
  have hlen : ts * nt ≤ (raw alg (utf8 i)).length := by
    have := hv.2.2
    rw [(hraw alg []).2 (utf8 i)]
    exact this
  by_cases hnt : nt = 0
  · subst hnt
    refine ⟨[], rfl, ⟨by simp, _, rfl⟩, ?_, ?_⟩
    · intro w hw; simp at hw; subst hw; exact hE
    · unfold Layout.hashNTuple
      rw [stringDigest_some hv]
      simp only [map_lower_hex hraw, tuplePath_zero, osPathJoin_nil, List.nil_append, joinWith]
  · have hts : 0 < ts := by
      by_contra h
      exact hnt (hv.2.1.mp (by omega))
    obtain ⟨ps, h1, h2, h3, rest, h4⟩ := tuplePath_eq (raw alg (utf8 i)) ts hts hd nt 0 [] (by simp)
      (by rw [Nat.zero_add, Nat.mul_comm]; exact hlen)
    have hps : ∀ w ∈ ps, IsComp w := fun w hw =>
      ⟨by intro e; have := (h3 w hw).1; rw [e] at this; simp at this; omega, (h3 w hw).2⟩
    refine ⟨ps, h2, ⟨fun w hw => (h3 w hw).1, rest, by simpa using h4⟩, ?_, ?_⟩
    · intro w hw
      rcases List.mem_append.mp hw with hw | hw
      · apply safeName_of_enc (hps w hw).1
        intro c hc
        have : c ∈ raw alg (utf8 i) := by
          have h5 : raw alg (utf8 i) = ps.flatten ++ rest := by simpa using h4
          rw [h5]
          exact List.mem_append_left _ (List.mem_flatten.mpr ⟨w, hw, hc⟩)
        exact (hexLower_mem ((hraw alg _).1 c this)).1
      · simp at hw; subst hw; exact hE
    · unfold Layout.hashNTuple
      rw [stringDigest_some hv]
      simp only [map_lower_hex hraw]
      have h1' : Layout.tuplePath (raw alg (utf8 i)) ts nt 0 [] = joinWith '/' ps := by simpa [joinWith] using h1
      rw [h1', osPathJoin_joinWith hps hE.2.2.2]

/-- **C46** In every allowed configuration, the path of a non-empty identifier has exactly
`numberOfTuples + 1` components, all of them safe names; the first ones cut the digest of the
identifier into pieces of `tupleSize` characters. -/
theorem C46 {raw : Str → Bytes → Str} (hraw : HexDigests raw) {alg : Str} {ts nt : Nat}
    (hv : ValidNTuple raw alg ts nt) {i : Str} (hi : i ≠ []) :
    ∃ p ws, Layout.hashNTuple raw alg ts nt i = .ok p ∧ Below p ws ∧ ws.length = nt + 1 ∧
      Cuts ts ws.dropLast (raw alg (utf8 i)) := by
  obtain ⟨tuples, h1, h2, h3, h4⟩ := hashNTuple_path hraw hv hi
  exact ⟨_, _, h4, ⟨by simp, h3, rfl⟩, by simp [h1], by simpa using h2⟩

theorem encDir_inj {i j d e : Str}
    (h : Layout.encapsulationDirectory i d = Layout.encapsulationDirectory j e) : i = j ∨ d = e := by
  unfold Layout.encapsulationDirectory at h
  dsimp only at h
  split at h <;> split at h
  · right
    rename_i h1 h2
    have := List.append_inj_right h (by simp; omega)
    exact this
  · rename_i h1 h2
    exfalso
    have := congrArg List.length h
    simp at this
    omega
  · rename_i h1 h2
    exfalso
    have := congrArg List.length h
    simp at this
    omega
  · exact Or.inl (encapsulate_inj h)

/-- **C46**, injectivity: two different identifiers with one path have the same digest. -/
theorem C46_injective {raw : Str → Bytes → Str} (hraw : HexDigests raw) {alg : Str} {ts nt : Nat}
    (hv : ValidNTuple raw alg ts nt) {i j p : Str} (hi : i ≠ []) (hj : j ≠ [])
    (h1 : Layout.hashNTuple raw alg ts nt i = .ok p) (h2 : Layout.hashNTuple raw alg ts nt j = .ok p) :
    i = j ∨ raw alg (utf8 i) = raw alg (utf8 j) := by
  obtain ⟨t1, a1, b1, c1, d1⟩ := hashNTuple_path hraw hv hi
  obtain ⟨t2, a2, b2, c2, d2⟩ := hashNTuple_path hraw hv hj
  rw [h1, Except.ok.injEq] at d1
  rw [h2, Except.ok.injEq] at d2
  have := joinWith_inj (by simp) (by simp) (fun w hw => (c1 w hw).2.2.2) (fun w hw => (c2 w hw).2.2.2) (d1.symm.trans d2)
  have := List.append_inj_right' this (by simp)
  simp at this
  exact encDir_inj this

/-- **C46**, nesting: no object lies below another. -/
theorem C46_not_nested {raw : Str → Bytes → Str} (hraw : HexDigests raw) {alg : Str} {ts nt : Nat}
    (hv : ValidNTuple raw alg ts nt) {i j p q : Str} (hi : i ≠ []) (hj : j ≠ [])
    (h1 : Layout.hashNTuple raw alg ts nt i = .ok p) (h2 : Layout.hashNTuple raw alg ts nt j = .ok q) :
    ¬ NestedIn p q := by
  obtain ⟨p', ws, a1, ⟨b1, b2, rfl⟩, c1, _⟩ := C46 hraw hv hi
  obtain ⟨q', vs, a2, ⟨d1, d2, rfl⟩, c2, _⟩ := C46 hraw hv hj
  rw [h1, Except.ok.injEq] at a1
  rw [h2, Except.ok.injEq] at a2
  subst a1; subst a2
  rw [nestedIn_iff b1 d1 (fun w hw => (b2 w hw).2.2.2) (fun w hw => (d2 w hw).2.2.2)]
  rintro ⟨rs, hr, rfl⟩
  have : rs.length ≠ 0 := by simpa using hr
  simp at c1
  omega

/-- **C46**: the configurations the code accepts are allowed ones. -/
theorem C46_configurations {raw : Str → Bytes → Str} (hraw : HexDigests raw) {config : Dict Str Json} {req : Bool}
    {l : LayoutObj} {alg : Str} {ts nt : Nat}
    (h : LayoutObj.checkAndSet raw config req l = .ok (.hashNTuple alg ts nt)) :
    ValidNTuple raw alg ts nt ∧ ts ≤ 32 ∧ nt ≤ 32 := by
  have key : ∀ {a : Str} {t n : Nat}, LayoutObj.checkFull raw a t n = .ok () → ValidNTuple raw a t n := by
    intro a t n h
    unfold LayoutObj.checkFull at h
    split at h
    · cases h
    · rename_i h1
      split at h
      · cases h
      · rename_i d hd
        split at h
        · cases h
        · rename_i h2
          have halg : a = c!"sha512" ∨ a = c!"sha256" ∨ a = c!"sha1" ∨ a = c!"md5" := by
            unfold stringDigest at hd
            split at hd
            · assumption
            · cases hd
          refine ⟨halg, by omega, ?_⟩
          unfold stringDigest at hd
          rw [if_pos halg] at hd
          simp only [Option.some.injEq] at hd
          subst hd
          rw [(hraw a []).2] at h2
          omega
  have hint : ∀ {v : Option Json} {n : Nat}, LayoutObj.checkInt 0 32 v = .ok n → n ≤ 32 := by
    intro v n h
    unfold LayoutObj.checkInt at h
    split at h
    · cases h
    · split at h
      · cases h
      · split at h
        · cases h
        · simp only [Except.ok.injEq] at h
          omega
  unfold LayoutObj.checkAndSet at h
  have hbind : ∀ {α β : Type} {x : Py α} {f : α → Py β} {b : β}, (x >>= f) = .ok b → ∃ a, x = .ok a ∧ f a = .ok b := by
    intro α β x f b h
    cases x with
    | error e => cases h
    | ok a => exact ⟨a, rfl, h⟩
  have main : ∀ l : LayoutObj, LayoutObj.setParams raw config l = .ok (.hashNTuple alg ts nt) →
      ValidNTuple raw alg ts nt ∧ ts ≤ 32 ∧ nt ≤ 32 := by
    intro l h
    cases l with
    | flatDirect => cases h
    | flatQuoted => cases h
    | tupleTree t =>
      obtain ⟨a, _, h⟩ := hbind h
      cases h
    | uuidQuadtree p =>
      obtain ⟨a, _, h⟩ := hbind h
      cases h
    | hashNTuple a0 t0 n0 =>
      obtain ⟨a, _, h⟩ := hbind h
      obtain ⟨t, ht, h⟩ := hbind h
      obtain ⟨n, hn, h⟩ := hbind h
      obtain ⟨u, hu, h⟩ := hbind h
      cases h
      exact ⟨key hu, hint ht, hint hn⟩
  split at h
  · cases h
  · exact main l h

/-- A digest function with hexadecimal values, for the examples. -/
def exHexRaw (_ : Str) (b : Bytes) : Str := (List.replicate 63 '0') ++ (if b.length % 2 = 0 then c!"a" else c!"b")

theorem exHexRaw_hex : HexDigests exHexRaw := by
  intro alg b
  constructor
  · intro c hc
    unfold exHexRaw at hc
    rw [List.mem_append] at hc
    rcases hc with hc | hc
    · rw [List.mem_replicate] at hc
      rw [hc.2]; decide
    · split at hc <;> (simp at hc; subst hc; decide)
  · intro b'
    unfold exHexRaw
    split <;> split <;> rfl

example : ValidNTuple exHexRaw c!"sha256" 3 3 := ⟨by decide, by decide, by decide⟩
example : (Layout.hashNTuple exHexRaw c!"sha256" 3 2 c!"a:b/ü").toOption.map String.ofList =
    some "000/000/a%3ab%2f%c3%bc" := by decide +kernel

/-! ## C47: flat quoted -/

theorem quotePlus_eq (s : Str) : (quotePlus s).map (fun c => if c = '+' then ' ' else c) =
    s.flatMap (fun c => if (isUnreserved c || c = ' ') then [c] else (String.utf8EncodeChar c).flatMap pctUpper) := by
  induction s with
  | nil => rfl
  | cons c s ih =>
    unfold quotePlus at ih ⊢
    rw [List.flatMap_cons, List.map_append, ih, List.flatMap_cons]
    congr 1
    by_cases h : c = ' '
    · subst h; rfl
    · rw [if_neg h]
      by_cases hu : isUnreserved c = true
      · have hp : c ≠ '+' := by rintro rfl; revert hu; decide
        simp [hu, hp]
      · simp only [hu, h, decide_false, Bool.or_false, Bool.false_eq_true, if_false]
        rw [List.map_flatMap]
        congr 1
        funext b
        have hb : b.toNat < 256 := b.toNat_lt
        have key : ∀ n, n < 16 → hexDigitUpper n ≠ '+' := by decide
        have k1 := key (b.toNat / 16) (by omega)
        have k2 := key (b.toNat % 16) (by omega)
        simp [pctUpper, k1, k2]

theorem unquotePlus_quotePlus (s : Str) : unquotePlus (quotePlus s) = some s := by
  unfold unquotePlus
  rw [quotePlus_eq, unquote_encoded (fun c => isUnreserved c || c = ' ') pctUpper unquote_pctsUpper (by decide),
    utf8Decode_utf8]

theorem quotePlus_inj {s t : Str} (h : quotePlus s = quotePlus t) : s = t := by
  have := unquotePlus_quotePlus s
  rw [h, unquotePlus_quotePlus] at this
  exact (Option.some.inj this).symm

theorem quotePlus_no_slash (s : Str) : '/' ∉ quotePlus s := by
  intro h
  unfold quotePlus at h
  rw [List.mem_flatMap] at h
  obtain ⟨c, _, h⟩ := h
  split at h
  · revert h; decide
  · split at h
    · rename_i hu
      simp at h; subst h; revert hu; decide
    · rw [List.mem_flatMap] at h
      obtain ⟨b, _, h⟩ := h
      have hb : b.toNat < 256 := b.toNat_lt
      have key : ∀ n, n < 16 → hexDigitUpper n ≠ '/' := by decide
      have k1 := key (b.toNat / 16) (by omega)
      have k2 := key (b.toNat % 16) (by omega)
      simp [pctUpper, Ne.symm k1, Ne.symm k2] at h

/-- **C47**, reversible: decoding the path gives the identifier back, so the layout is injective. The
empty identifier is refused. -/
theorem C47_reversible (i p : Str) :
    (Layout.flatQuoted i = .ok p → Layout.decode p = some i) ∧
    (Layout.flatQuoted i = .error .layoutException ↔ i = []) := by
  unfold Layout.flatQuoted Layout.decode
  constructor
  · intro h
    split at h
    · cases h
    · simp only [Except.ok.injEq] at h
      subst h
      exact unquotePlus_quotePlus i
  · by_cases hi : i = [] <;> simp [hi]

theorem C47_injective {i j p : Str} (hi : Layout.flatQuoted i = .ok p) (hj : Layout.flatQuoted j = .ok p) : i = j := by
  have h1 := (C47_reversible i p).1 hi
  have h2 := (C47_reversible j p).1 hj
  rw [h1] at h2
  exact Option.some.inj h2

/-- **C47_partial** For identifiers other than `.` and `..` the path is one safe name. -/
theorem C47_partial {i p : Str} (h1 : i ≠ c!".") (h2 : i ≠ c!"..") (h : Layout.flatQuoted i = .ok p) :
    SafeName p ∧ Layout.decode p = some i := by
  have hd := (C47_reversible i p).1 h
  refine ⟨?_, hd⟩
  unfold Layout.flatQuoted at h
  split at h
  · cases h
  · rename_i hne
    simp only [Except.ok.injEq] at h
    subst h
    refine ⟨fun e => hne (quotePlus_inj (t := []) e), fun e => h1 (quotePlus_inj (t := c!".") e),
      fun e => h2 (quotePlus_inj (t := c!"..") e), quotePlus_no_slash i⟩

/-- **C47**, what is missing: the identifiers `.` and `..` are mapped to themselves, that is to the
storage root and to its parent. -/
theorem C47_violated : Layout.flatQuoted c!"." = .ok c!"." ∧ Layout.flatQuoted c!".." = .ok c!".." := ⟨rfl, rfl⟩

example : (Layout.flatQuoted c!"http://x y").toOption.map String.ofList = some "http%3A%2F%2Fx+y" := by decide +kernel

/-! ## C48: tuple tree -/

/-- What is assumed of `pairtree.id_encode`: it is injective, never gives the empty string for a
non-empty one, and removes separators. -/
structure GoodEncoder (enc : Str → Str) : Prop where
  inj : ∀ i j, enc i = enc j → i = j
  ne : ∀ i, i ≠ [] → enc i ≠ []
  noSep : ∀ i, '/' ∉ enc i

theorem tupleTree_eq {enc : Str → Str} (henc : GoodEncoder enc) {ts : Nat} (hts : 0 < ts) {i : Str} (hi : i ≠ []) :
    (∀ w ∈ segs ts (enc i) ++ [enc i], IsComp w) ∧
    Layout.tupleTree enc ts i = .ok (joinWith '/' (segs ts (enc i) ++ [enc i])) := by
  have hc : ∀ w ∈ segs ts (enc i) ++ [enc i], IsComp w := by
    intro w hw
    rcases List.mem_append.mp hw with hw | hw
    · exact ⟨(segs_length hts (henc.ne i hi) w hw).1, fun hm => henc.noSep i (segs_mem hts hw hm)⟩
    · simp at hw; subst hw; exact ⟨henc.ne i hi, henc.noSep i⟩
  refine ⟨hc, ?_⟩
  unfold Layout.tupleTree
  rw [if_neg hi]
  show Except.ok _ = _
  rw [← join_components hc]
  rfl

/-- **C48**, injectivity: for every tuple size different identifiers have different paths. -/
theorem C48_injective {enc : Str → Str} (henc : GoodEncoder enc) {ts : Nat} (hts : 0 < ts) {i j p : Str}
    (h1 : Layout.tupleTree enc ts i = .ok p) (h2 : Layout.tupleTree enc ts j = .ok p) : i = j := by
  have hne : ∀ {k q}, Layout.tupleTree enc ts k = .ok q → k ≠ [] := by
    intro k q h e
    subst e
    cases h
  obtain ⟨c1, d1⟩ := tupleTree_eq henc hts (hne h1)
  obtain ⟨c2, d2⟩ := tupleTree_eq henc hts (hne h2)
  rw [h1, Except.ok.injEq] at d1
  rw [h2, Except.ok.injEq] at d2
  have := joinWith_inj (by simp) (by simp) (fun w hw => (c1 w hw).2) (fun w hw => (c2 w hw).2) (d1.symm.trans d2)
  have := List.append_inj_right' this (by simp)
  simp at this
  exact henc.inj _ _ this

/-- **C48_partial** Exactly when one object's path lies below another one's: when the encoded
identifier of the upper one is as long as the tuples and the other one begins with it twice. -/
theorem C48_partial {enc : Str → Str} (henc : GoodEncoder enc) {ts : Nat} (hts : 0 < ts) {i j p q : Str}
    (h1 : Layout.tupleTree enc ts i = .ok p) (h2 : Layout.tupleTree enc ts j = .ok q) :
    NestedIn p q ↔ (enc j).length = ts ∧ ∃ r, enc i = enc j ++ enc j ++ r := by
  have hne : ∀ {k q}, Layout.tupleTree enc ts k = .ok q → k ≠ [] := by
    intro k q h e
    subst e
    cases h
  obtain ⟨c1, d1⟩ := tupleTree_eq henc hts (hne h1)
  obtain ⟨c2, d2⟩ := tupleTree_eq henc hts (hne h2)
  have hi := henc.ne i (hne h1)
  have hj := henc.ne j (hne h2)
  rw [h1, Except.ok.injEq] at d1
  rw [h2, Except.ok.injEq] at d2
  subst d1; subst d2
  rw [nestedIn_iff (by simp) (by simp) (fun w hw => (c1 w hw).2) (fun w hw => (c2 w hw).2)]
  generalize enc i = x at *
  generalize enc j = y at *
  constructor
  · rintro ⟨rs, hr, h⟩
    -- the last component of `i` is not part of the prefix
    obtain ⟨rs', z, rfl⟩ : ∃ rs' z, rs = rs' ++ [z] := ⟨rs.dropLast, rs.getLast hr, (List.dropLast_concat_getLast hr).symm⟩
    rw [← List.append_assoc] at h
    have hx := List.append_inj_left' h (by simp)
    have hy : y ∈ segs ts x := by rw [hx]; simp
    have hyl := (segs_length hts hi y hy).2
    rw [segs_of_le hyl] at hx
    have hgt : x.length > ts := by
      by_contra hle
      rw [segs_of_le (by omega)] at hx
      have := congrArg List.length hx
      simp at this
    rw [segs_of_gt hts hgt] at hx
    simp at hx
    obtain ⟨e1, e2⟩ := hx
    have hlen : y.length = ts := by rw [← e1, List.length_take]; omega
    refine ⟨hlen, rs'.flatten, ?_⟩
    have h3 := segs_flatten hts (x.drop ts)
    rw [e2, List.flatten_cons] at h3
    rw [List.append_assoc, h3, ← e1, List.take_append_drop]
  · rintro ⟨hl, r, rfl⟩
    have e1 : segs ts (y ++ y ++ r) = y :: segs ts (y ++ r) := by
      rw [segs_of_gt hts (by simp [hl]; omega), List.append_assoc]
      have : (y ++ (y ++ r)).take ts = y := by rw [← hl]; simp
      have h' : (y ++ (y ++ r)).drop ts = y ++ r := by rw [← hl]; simp
      rw [this, h']
    rw [segs_of_le (e := y) (by omega), e1]
    by_cases hr : r = []
    · subst hr
      rw [List.append_nil, segs_of_le (by omega)]
      exact ⟨[y ++ y ++ []], by simp, by simp⟩
    · have hr0 : r.length > 0 := List.length_pos_iff.mpr hr
      have e2 : segs ts (y ++ r) = y :: segs ts r := by
        rw [segs_of_gt hts (by simp [hl]; omega)]
        have : (y ++ r).take ts = y := by rw [← hl]; simp
        have h' : (y ++ r).drop ts = r := by rw [← hl]; simp
        rw [this, h']
      rw [e2]
      exact ⟨segs ts r ++ [y ++ y ++ r], by simp, by simp⟩

/-- **C48**, what is missing: with the default tuple size the object `abab` lies below the object
`ab`. Every encoder that leaves letters alone, as Pairtree does, is such an encoder. -/
theorem C48_violated (enc : Str → Str) (h1 : enc c!"ab" = c!"ab") (h2 : enc c!"abab" = c!"abab") :
    ∃ p q, Layout.tupleTree enc 2 c!"ab" = .ok q ∧ Layout.tupleTree enc 2 c!"abab" = .ok p ∧ NestedIn p q := by
  refine ⟨c!"ab/ab/abab", c!"ab/ab", ?_, ?_, ⟨c!"abab", rfl⟩⟩
  · unfold Layout.tupleTree; rw [h1]; rfl
  · unfold Layout.tupleTree; rw [h2]; rfl

/-- An encoder that meets the assumptions. -/
theorem exEncoder_good : GoodEncoder quotePlus where
  inj := fun _ _ h => quotePlus_inj h
  ne := fun _ h e => h (quotePlus_inj (t := []) e)
  noSep := quotePlus_no_slash

example : (Layout.tupleTree quotePlus 3 c!"abcd/e").toOption.map String.ofList = some "abc/d%2/Fe/abcd%2Fe" := by
  decide +kernel

/-! ## C49: UUID quadtree -/

theorem hex_uuidChar {c : Char} (h : c ∈ c!"0123456789abcdef") : Layout.isUuidChar c = true := by
  revert h c
  decide

/-- The eight groups of a string of that shape, without what may follow. -/
def uuidText (gs : List Str) (t : Str) : Str :=
  match gs with
  | [g1, g2, g3, g4, g5, g6, g7, g8] =>
    g1 ++ (g2 ++ '-' :: (g3 ++ '-' :: (g4 ++ '-' :: (g5 ++ '-' :: (g6 ++ (g7 ++ (g8 ++ t)))))))
  | _ => []

theorem uuidQuadtree_iff {pfx i p : Str} : Layout.uuidQuadtree pfx i = .ok p ↔
    ∃ gs t, gs.length = 8 ∧ (∀ g ∈ gs, Group g) ∧ i = pfx ++ uuidText gs t ∧ (t = [] ∨ t = ['\n']) ∧
      p = joinWith '/' gs := by
  unfold Layout.uuidQuadtree
  constructor
  · intro h
    split at h
    · rename_i hs
      obtain ⟨u, rfl⟩ := startsWith_iff.mp hs
      rw [List.drop_left] at h
      split at h
      · cases h
      · rename_i gs hgs
        simp only [Except.ok.injEq] at h
        obtain ⟨g1, g2, g3, g4, g5, g6, g7, g8, t, rfl, hg, rfl, ht⟩ := matchUuid_iff.mp hgs
        refine ⟨[g1, g2, g3, g4, g5, g6, g7, g8], t, rfl, hg, rfl, ht, ?_⟩
        rw [← h, join_components (fun w hw => SafeName.isComp (group_safe (hg w hw)))]
    · cases h
  · rintro ⟨gs, t, hl, hg, rfl, ht, rfl⟩
    match gs, hl with
    | [g1, g2, g3, g4, g5, g6, g7, g8], _ =>
      rw [if_pos (startsWith_append _ _), List.drop_left]
      rw [show Layout.matchUuid (uuidText [g1, g2, g3, g4, g5, g6, g7, g8] t) = some [g1, g2, g3, g4, g5, g6, g7, g8] from
        matchUuid_iff.mpr ⟨g1, g2, g3, g4, g5, g6, g7, g8, t, rfl, hg, rfl, ht⟩]
      simp only
      rw [join_components (fun w hw => SafeName.isComp (group_safe (hg w hw)))]

theorem length_four {g : Str} (h : g.length = 4) : ∃ a b c d, g = [a, b, c, d] := by
  match g, h with
  | [a, b, c, d], _ => exact ⟨a, b, c, d, rfl⟩

/-- **C49**, accepted identifiers: prefix and canonical UUID give eight four-character components,
which are the digits of the UUID in order. -/
theorem C49_accepts {pfx u : Str} (h : CanonicalUuid u) :
    ∃ p ws, Layout.uuidQuadtree pfx (pfx ++ u) = .ok p ∧ Below p ws ∧ ws.length = 8 ∧
      Cuts 4 ws (u.filter (fun c => c ≠ '-')) := by
  obtain ⟨a, b, c, d, e, rfl, ha, hb, hc, hd, he, hall⟩ := h
  have split8 : ∀ n (s : Str), s.length = 4 + n → s = s.take 4 ++ s.drop 4 ∧ (s.take 4).length = 4 ∧ (s.drop 4).length = n :=
    fun n s hs => ⟨(List.take_append_drop _ _).symm, by rw [List.length_take]; omega, by rw [List.length_drop]; omega⟩
  obtain ⟨ea, la1, la2⟩ := split8 4 a (by omega)
  obtain ⟨ee, le1, le2⟩ := split8 8 e (by omega)
  obtain ⟨ef, lf1, lf2⟩ := split8 4 (e.drop 4) le2
  let gs : List Str := [a.take 4, a.drop 4, b, c, d, e.take 4, (e.drop 4).take 4, (e.drop 4).drop 4]
  have hch : ∀ {x}, (x ∈ a ∨ x ∈ b ∨ x ∈ c ∨ x ∈ d ∨ x ∈ e) → Layout.isUuidChar x = true := by
    intro x hx
    apply hex_uuidChar
    apply hall
    simp only [List.mem_append]
    tauto
  have hg : ∀ g ∈ gs, Group g := by
    intro g hgm
    simp only [gs, List.mem_cons, List.not_mem_nil, or_false] at hgm
    rcases hgm with rfl | rfl | rfl | rfl | rfl | rfl | rfl | rfl
    · exact ⟨la1, fun x hx => hch (Or.inl (List.mem_of_mem_take hx))⟩
    · exact ⟨la2, fun x hx => hch (Or.inl (List.mem_of_mem_drop hx))⟩
    · exact ⟨hb, fun x hx => hch (by tauto)⟩
    · exact ⟨hc, fun x hx => hch (by tauto)⟩
    · exact ⟨hd, fun x hx => hch (by tauto)⟩
    · exact ⟨le1, fun x hx => hch (by have := List.mem_of_mem_take hx; tauto)⟩
    · exact ⟨lf1, fun x hx => hch (by have := List.mem_of_mem_drop (List.mem_of_mem_take hx); tauto)⟩
    · exact ⟨lf2, fun x hx => hch (by have := List.mem_of_mem_drop (List.mem_of_mem_drop hx); tauto)⟩
  have hflat : gs.flatten = a ++ b ++ c ++ d ++ e := by
    simp only [gs, List.flatten_cons, List.flatten_nil, List.append_nil]
    rw [List.take_append_drop, List.take_append_drop]
    have : a.take 4 ++ (a.drop 4 ++ (b ++ (c ++ (d ++ e)))) = (a.take 4 ++ a.drop 4) ++ (b ++ (c ++ (d ++ e))) := by
      rw [List.append_assoc]
    rw [this, List.take_append_drop]
    simp
  have hfil : ∀ {s : Str}, (∀ x ∈ s, Layout.isUuidChar x = true) → s.filter (fun c => c ≠ '-') = s := by
    intro s hs
    rw [List.filter_eq_self]
    intro x hx
    simpa using (uuidChar_comp (hs x hx)).2.2.2
  refine ⟨joinWith '/' gs, gs, uuidQuadtree_iff.mpr ⟨gs, [], rfl, hg, ?_, Or.inl rfl, rfl⟩,
    ⟨by simp [gs], fun w hw => group_safe (hg w hw), rfl⟩, rfl, fun w hw => (hg w hw).1, [], ?_⟩
  · congr 1
    show _ = a.take 4 ++ (a.drop 4 ++ _)
    rw [← List.append_assoc (a.take 4), List.take_append_drop]
    rw [List.append_nil, List.take_append_drop, List.take_append_drop]
    simp
  · rw [hflat, List.append_nil]
    simp only [List.filter_append, List.filter_cons, ne_eq, not_true_eq_false, decide_false, Bool.false_eq_true, if_false]
    rw [hfil (fun x hx => hch (by tauto)), hfil (fun x hx => hch (by tauto)), hfil (fun x hx => hch (by tauto)),
      hfil (fun x hx => hch (by tauto)), hfil (fun x hx => hch (by tauto))]

/-- `\d` on ASCII characters. -/
theorem isDigit_of_ascii {c : Char} (h : isDigit c = true) (ha : c.toNat < 128) : c ∈ c!"0123456789" := by
  have key : ∀ n, n < 128 → isDigit (Char.ofNat n) = true → Char.ofNat n ∈ c!"0123456789" := by decide +kernel
  have := key c.toNat ha
  rw [Char.ofNat_toNat] at this
  exact this h

/-- **C49_partial** Everything the layout accepts is the prefix followed by a UUID, for identifiers
of ASCII characters that do not end with a newline; such identifiers never share a path. All other
strings are refused. -/
theorem C49_partial {pfx i p : Str} (h : Layout.uuidQuadtree pfx i = .ok p) (hn : i.getLast? ≠ some '\n') :
    ((∀ c ∈ i, c.toNat < 128) → ∃ u, i = pfx ++ u ∧ CanonicalUuid u) ∧
    (∀ j, Layout.uuidQuadtree pfx j = .ok p → j.getLast? ≠ some '\n' → i = j) := by
  have noNL : ∀ {k : Str} {gs : List Str} {t : Str}, gs.length = 8 → k = pfx ++ uuidText gs t → (t = [] ∨ t = ['\n']) →
      k.getLast? ≠ some '\n' → t = [] := by
    intro k gs t hl hk ht hkn
    rcases ht with rfl | rfl
    · rfl
    · exfalso; apply hkn
      match gs, hl with
      | [g1, g2, g3, g4, g5, g6, g7, g8], _ =>
        rw [hk]
        have : pfx ++ uuidText [g1, g2, g3, g4, g5, g6, g7, g8] ['\n'] =
            (pfx ++ uuidText [g1, g2, g3, g4, g5, g6, g7, g8] []) ++ ['\n'] := by simp [uuidText]
        rw [this, List.getLast?_append]
        rfl
  obtain ⟨gs, t, hl, hg, hi, ht, hp⟩ := uuidQuadtree_iff.mp h
  have ht0 := noNL hl hi ht hn
  subst ht0
  constructor
  · intro hascii
    refine ⟨_, hi, ?_⟩
    match gs, hl with
    | [g1, g2, g3, g4, g5, g6, g7, g8], _ =>
      have hmem : ∀ {x}, x ∈ uuidText [g1, g2, g3, g4, g5, g6, g7, g8] [] → x.toNat < 128 := by
        intro x hx
        apply hascii
        rw [hi]
        exact List.mem_append_right _ hx
      have hx : ∀ g ∈ [g1, g2, g3, g4, g5, g6, g7, g8], ∀ c ∈ g, c ∈ c!"0123456789abcdef" := by
        intro g hgm c hc
        have h1 := (hg g hgm).2 c hc
        have h2 : c.toNat < 128 := by
          apply hmem
          simp only [uuidText, List.mem_append, List.mem_cons, List.not_mem_nil, or_false]
          simp only [List.mem_cons, List.not_mem_nil, or_false] at hgm
          rcases hgm with rfl | rfl | rfl | rfl | rfl | rfl | rfl | rfl <;> tauto
        unfold Layout.isUuidChar at h1
        rw [Bool.or_eq_true] at h1
        rcases h1 with h1 | h1
        · have := isDigit_of_ascii h1 h2
          simp only [List.mem_cons, List.not_mem_nil, or_false] at this ⊢
          tauto
        · have key : ∀ n, n < 128 → (('a' ≤ Char.ofNat n && Char.ofNat n ≤ 'f') = true) →
              Char.ofNat n ∈ c!"0123456789abcdef" := by decide +kernel
          have := key c.toNat h2
          rw [Char.ofNat_toNat] at this
          exact this h1
      have hlen : ∀ g ∈ [g1, g2, g3, g4, g5, g6, g7, g8], g.length = 4 := fun g hgm => (hg g hgm).1
      have x1 := hx g1 (by simp)
      have x2 := hx g2 (by simp)
      have x3 := hx g3 (by simp)
      have x4 := hx g4 (by simp)
      have x5 := hx g5 (by simp)
      have x6 := hx g6 (by simp)
      have x7 := hx g7 (by simp)
      have x8 := hx g8 (by simp)
      simp only [List.mem_cons, List.not_mem_nil, or_false, forall_eq_or_imp, forall_eq] at hlen
      refine ⟨g1 ++ g2, g3, g4, g5, g6 ++ g7 ++ g8, ?_, ?_, ?_, ?_, ?_, ?_, ?_⟩
      · simp [uuidText]
      · simp; omega
      · omega
      · omega
      · omega
      · simp; omega
      · intro x hxm
        simp only [List.mem_append] at hxm
        rcases hxm with ((((h | h) | h) | h) | h) | (h | h) | h
        · exact x1 x h
        · exact x2 x h
        · exact x3 x h
        · exact x4 x h
        · exact x5 x h
        · exact x6 x h
        · exact x7 x h
        · exact x8 x h
  · intro j hj hjn
    obtain ⟨gs', t', hl', hg', hj', ht', hp'⟩ := uuidQuadtree_iff.mp hj
    have := noNL hl' hj' ht' hjn
    subst this
    have heq := joinWith_inj (by intro e; rw [e] at hl; simp at hl) (by intro e; rw [e] at hl'; simp at hl')
      (fun w hw => (group_safe (hg w hw)).2.2.2) (fun w hw => (group_safe (hg' w hw)).2.2.2) (hp.symm.trans hp')
    rw [hi, hj', heq]

/-- **C49**, what is missing: a newline at the end is overlooked, so two identifiers share a path; and
decimal digits of other scripts are accepted. -/
theorem C49_violated :
    (∃ p, Layout.uuidQuadtree c!"urn:uuid:" c!"urn:uuid:6ba7b810-9dad-11d1-80b4-00c04fd430c8" = .ok p ∧
      Layout.uuidQuadtree c!"urn:uuid:" c!"urn:uuid:6ba7b810-9dad-11d1-80b4-00c04fd430c8\n" = .ok p) ∧
    (∃ p, Layout.uuidQuadtree c!"urn:uuid:" c!"urn:uuid:6ba7b81٠-9dad-11d1-80b4-00c04fd430c8" = .ok p) :=
  ⟨⟨c!"6ba7/b810/9dad/11d1/80b4/00c0/4fd4/30c8", by decide +kernel, by decide +kernel⟩,
   ⟨c!"6ba7/b81٠/9dad/11d1/80b4/00c0/4fd4/30c8", by decide +kernel⟩⟩

example : CanonicalUuid c!"6ba7b810-9dad-11d1-80b4-00c04fd430c8" :=
  ⟨c!"6ba7b810", c!"9dad", c!"11d1", c!"80b4", c!"00c04fd430c8", by decide, by decide, by decide, by decide,
    by decide, by decide, by decide⟩

/-! ## C51: registry -/

theorem mem_registry {n : Str} {l : LayoutObj} (h : getLayout defaultRegistry n = .ok l) : (n, l) ∈ defaultRegistry := by
  unfold getLayout at h
  split at h
  · cases h
  · rename_i l' hl
    simp only [Except.ok.injEq] at h
    subst h
    exact Dict.mem_of_get? hl

/-- **C51_partial** For every registered name other than that of the tuple tree layout, the name the
layout declares (and `initialize` writes to `ocfl_layout.json`) is registered and yields the same
layout. -/
theorem C51_partial {n : Str} {l : LayoutObj} (h : getLayout defaultRegistry n = .ok l) (ht : n ≠ c!"nnnn-tuple-tree") :
    layoutIsSupported defaultRegistry l.name = true ∧ getLayout defaultRegistry l.name = .ok l := by
  have hm := mem_registry h
  have key : ∀ x ∈ defaultRegistry, x.1 ≠ c!"nnnn-tuple-tree" →
      layoutIsSupported defaultRegistry x.2.name = true ∧ getLayout defaultRegistry x.2.name = .ok x.2 := by
    decide +kernel
  exact key (n, l) hm ht

/-- **C51**, what is missing: the tuple tree layout is registered as `nnnn-tuple-tree` but calls itself
`nnnn-tuple-tree-layout`, which is not registered. A storage root made with it cannot be opened. -/
theorem C51_violated : ∃ l, getLayout defaultRegistry c!"nnnn-tuple-tree" = .ok l ∧
    layoutIsSupported defaultRegistry l.name = false ∧ getLayout defaultRegistry l.name = .error .exception :=
  ⟨.tupleTree 2, by decide +kernel, by decide +kernel, by decide +kernel⟩

/-- **C51**, custom layouts: what is registered is found, the other names keep their layout, and a
layout registered under its own name can be reopened. -/
theorem C51_add (reg : Dict Str LayoutObj) (n : Str) (l : LayoutObj) (m : Str) :
    getLayout (addLayout reg n l) m = (if n = m then .ok l else getLayout reg m) ∧
    layoutIsSupported (addLayout reg n l) m = (decide (n = m) || layoutIsSupported reg m) := by
  unfold getLayout addLayout layoutIsSupported Dict.has
  rw [Dict.get?_set]
  by_cases h : n = m <;> simp [h]

example : getLayout defaultRegistry c!"0003" = .ok (.hashNTuple c!"sha256" 3 3) := by decide +kernel

end Ocfl
