import Verif.Props.Layout
import Verif.Props.Fsw
import Verif.Proofs.Only
import Verif.Spec.LayoutConfig
import Verif.Model.LayoutIO

/-!
# C50: layout parameters survive writing and reading
-/

namespace Ocfl

open Spec FS Prog

theorem py_bind_ok {α β : Type} {x : Py α} {f : α → Py β} {b : β} : (x >>= f) = .ok b ↔ ∃ a, x = .ok a ∧ f a = .ok b := by
  cases x with
  | error e => constructor
               · intro h; cases h
               · rintro ⟨a, h, _⟩; cases h
  | ok a => constructor
            · intro h; exact ⟨a, rfl, h⟩
            · rintro ⟨a', h, h'⟩; cases h; exact h'

theorem intValue_isNat {j : Json} {n : Nat} : LayoutObj.intValue j = some (n : Int) ↔ IsNat j n := by
  constructor
  · intro h
    unfold LayoutObj.intValue at h
    split at h
    · rename_i b
      cases b
      · simp at h
        have : n = 0 := by omega
        subst this; exact .false
      · simp at h
        have : n = 1 := by omega
        subst this; exact .true
    · rename_i lit
      split at h
      · rename_i ds
        split at h
        · rename_i hc
          simp only [Option.some.injEq] at h
          have h0 : intOf ds = 0 := by omega
          have hn : n = 0 := by omega
          subst hn
          exact .minusZero hc.1 (by simpa using hc.2) h0
        · cases h
      · split at h
        · rename_i hc
          simp only [Option.some.injEq] at h
          have hn : n = intOf lit := by omega
          subst hn
          exact .digits hc.1 (by simpa using hc.2)
        · cases h
    · cases h
  · intro h
    cases h with
    | @digits ds h1 h2 =>
      have hm : ∀ ds', ds ≠ '-' :: ds' := by
        rintro ds' rfl
        have := h2 '-' (by simp)
        revert this
        decide
      unfold LayoutObj.intValue
      dsimp only
      split
      · rename_i ds'
        exact absurd rfl (hm ds')
      · rw [if_pos ⟨h1, by simpa using h2⟩]
    | @minusZero ds h1 h2 h3 =>
      have hc : ds ≠ [] ∧ ds.all isDigit = true := ⟨h1, by simpa using h2⟩
      show (if ds ≠ [] ∧ ds.all isDigit = true then some (-(intOf ds : Int)) else none) = some ((0 : Nat) : Int)
      rw [if_pos hc, h3]
      rfl
    | false => rfl
    | true => rfl

theorem intValue_nonneg {j : Json} {i : Int} (h : LayoutObj.intValue j = some i) (h0 : 0 ≤ i) : IsNat j i.toNat :=
  intValue_isNat.mp (by rw [h]; congr 1; omega)

theorem not_isNat_null {n : Nat} : ¬ IsNat .null n := by intro h; cases h

theorem param_some {config : Dict Str Json} {key : Str} {v : Json} :
    LayoutObj.param config key = some v ↔ Dict.get? config key = some v ∧ v ≠ .null := by
  unfold LayoutObj.param
  split
  · rename_i h
    rw [h]
    constructor
    · intro hc; cases hc
    · rintro ⟨hc, hn⟩; cases hc; exact absurd rfl hn
  · rename_i h
    constructor
    · intro hc
      exact ⟨hc, by rintro rfl; exact h hc⟩
    · exact fun hc => hc.1

theorem checkInt_ok {lo hi : Nat} {config : Dict Str Json} {key : Str} {n : Nat} :
    LayoutObj.checkInt lo hi (LayoutObj.param config key) = .ok n ↔
      ∃ j, Dict.get? config key = some j ∧ IsNat j n ∧ lo ≤ n ∧ n ≤ hi := by
  unfold LayoutObj.checkInt
  constructor
  · intro h
    split at h
    · cases h
    · rename_i v hv
      split at h
      · cases h
      · rename_i i hi'
        split at h
        · cases h
        · rename_i hr
          simp only [Except.ok.injEq] at h
          subst h
          exact ⟨v, (param_some.mp hv).1, intValue_nonneg hi' (by omega), by omega, by omega⟩
  · rintro ⟨j, hj, hn, h1, h2⟩
    rw [param_some.mpr ⟨hj, by rintro rfl; exact not_isNat_null hn⟩]
    dsimp only
    rw [intValue_isNat.mpr hn]
    dsimp only
    rw [if_neg (by omega)]
    simp

theorem stringDigest_isSome {raw : Str → Bytes → Str} {alg : Str} {b : Bytes} :
    (stringDigest raw alg b ≠ none) ↔ (alg = c!"sha512" ∨ alg = c!"sha256" ∨ alg = c!"sha1" ∨ alg = c!"md5") := by
  unfold stringDigest
  split
  · rename_i h; simp [h]
  · rename_i h; simp [h]

theorem checkAlgorithm_ok {raw : Str → Bytes → Str} {config : Dict Str Json} {key alg : Str} :
    LayoutObj.checkAlgorithm raw (LayoutObj.param config key) = .ok alg ↔
      Dict.get? config key = some (.str alg) ∧ (alg = c!"sha512" ∨ alg = c!"sha256" ∨ alg = c!"sha1" ∨ alg = c!"md5") := by
  unfold LayoutObj.checkAlgorithm
  constructor
  · intro h
    split at h
    · rename_i a ha
      split at h
      · cases h
      · rename_i d hd
        simp only [Except.ok.injEq] at h
        subst h
        exact ⟨(param_some.mp ha).1, stringDigest_isSome.mp (by rw [hd]; simp)⟩
    · cases h
  · rintro ⟨h1, h2⟩
    rw [param_some.mpr ⟨h1, by simp⟩]
    dsimp only
    have := (stringDigest_isSome (raw := raw) (b := utf8 c!"dummy_data")).mpr h2
    split
    · rename_i hd; exact absurd hd this
    · rfl

theorem checkFull_ok {raw : Str → Bytes → Str} (hraw : HexDigests raw) {alg : Str} {ts nt : Nat}
    (halg : alg = c!"sha512" ∨ alg = c!"sha256" ∨ alg = c!"sha1" ∨ alg = c!"md5") :
    LayoutObj.checkFull raw alg ts nt = .ok () ↔ ValidNTuple raw alg ts nt := by
  have hd : stringDigest raw alg (utf8 c!"dummy_data") = some (raw alg (utf8 c!"dummy_data")) := by
    unfold stringDigest; rw [if_pos halg]
  have hlen := (hraw alg []).2 (utf8 c!"dummy_data")
  unfold LayoutObj.checkFull ValidNTuple
  rw [hd]
  dsimp only
  constructor
  · intro h
    split at h
    · cases h
    · split at h
      · cases h
      · exact ⟨halg, by omega, by omega⟩
  · rintro ⟨_, h1, h2⟩
    rw [if_neg (by omega), if_neg (by omega)]

/-- Which parameters are accepted. -/
theorem setParams_ok {raw : Str → Bytes → Str} (hraw : HexDigests raw) {config : Dict Str Json} {l l' : LayoutObj} :
    LayoutObj.setParams raw config l = .ok l' ↔ Configures raw config l l' := by
  constructor
  · intro h
    cases l with
    | flatDirect => cases h
    | flatQuoted => cases h
    | tupleTree ts0 =>
      obtain ⟨ts, h1, h2⟩ := py_bind_ok.mp h
      cases h2
      obtain ⟨j, hj, hn, h3, h4⟩ := checkInt_ok.mp h1
      exact .tupleTree hj hn h3 h4
    | uuidQuadtree p0 =>
      obtain ⟨p, h1, h2⟩ := py_bind_ok.mp h
      cases h2
      unfold LayoutObj.checkPrefix at h1
      split at h1
      · rename_i q hq
        split at h1
        · cases h1
        · rename_i hne
          cases h1
          exact .uuidQuadtree (param_some.mp hq).1 hne
      · cases h1
    | hashNTuple a0 t0 n0 =>
      obtain ⟨a, ha, h⟩ := py_bind_ok.mp h
      obtain ⟨t, ht, h⟩ := py_bind_ok.mp h
      obtain ⟨n, hn, h⟩ := py_bind_ok.mp h
      obtain ⟨u, hu, h⟩ := py_bind_ok.mp h
      cases h
      obtain ⟨h1, h2⟩ := checkAlgorithm_ok.mp ha
      obtain ⟨jt, h3, h4, -, h5⟩ := checkInt_ok.mp ht
      obtain ⟨jn, h6, h7, -, h8⟩ := checkInt_ok.mp hn
      exact .hashNTuple h1 h3 h4 h6 h7 h5 h8 ((checkFull_ok hraw h2).mp hu)
  · intro h
    cases h with
    | tupleTree h1 h2 h3 h4 =>
      exact py_bind_ok.mpr ⟨_, checkInt_ok.mpr ⟨_, h1, h2, h3, h4⟩, rfl⟩
    | uuidQuadtree h1 h2 =>
      refine py_bind_ok.mpr ⟨_, ?_, rfl⟩
      unfold LayoutObj.checkPrefix
      rw [param_some.mpr ⟨h1, by simp⟩]
      dsimp only
      rw [if_neg h2]
    | hashNTuple h1 h2 h3 h4 h5 h6 h7 h8 =>
      refine py_bind_ok.mpr ⟨_, checkAlgorithm_ok.mpr ⟨h1, h8.1⟩, ?_⟩
      refine py_bind_ok.mpr ⟨_, checkInt_ok.mpr ⟨_, h2, h3, by omega, h6⟩, ?_⟩
      refine py_bind_ok.mpr ⟨_, checkInt_ok.mpr ⟨_, h4, h5, by omega, h7⟩, ?_⟩
      exact py_bind_ok.mpr ⟨(), (checkFull_ok hraw h8.1).mpr h8, rfl⟩

/-- C50, which configurations are accepted: the extension name is that of the layout and the
parameters are there and allowed. -/
theorem C50_accepts {raw : Str → Bytes → Str} (hraw : HexDigests raw) {config : Dict Str Json} {l l' : LayoutObj} :
    l.checkAndSet raw config true = .ok l' ↔
      Dict.get? config c!"extensionName" = some (.str l.name) ∧ Configures raw config l l' := by
  unfold LayoutObj.checkAndSet
  have hname : LayoutObj.checkName config true l = .ok () ↔ Dict.get? config c!"extensionName" = some (.str l.name) := by
    unfold LayoutObj.checkName
    split
    · rename_i h; rw [h]; simp
    · rename_i n h
      rw [h]
      split
      · rename_i hn
        constructor
        · intro hc; cases hc
        · intro hc; cases hc; exact absurd rfl hn
      · rename_i hn
        simp only [not_not] at hn
        cases n with
        | str m => simp only [Json.str?, Option.some.injEq] at hn; subst hn; simp
        | _ => simp [Json.str?] at hn
  have hset := setParams_ok hraw (config := config) (l := l) (l' := l')
  constructor
  · intro h
    split at h
    · cases h
    · rename_i hn; exact ⟨hname.mp hn, hset.mp h⟩
  · rintro ⟨h1, h2⟩
    rw [hname.mpr h1]
    exact hset.mpr h2

/-- The parameters of a layout object are allowed ones. -/
def GoodParams (raw : Str → Bytes → Str) : LayoutObj → Prop
  | .flatDirect => True
  | .flatQuoted => True
  | .hashNTuple alg ts nt => ValidNTuple raw alg ts nt ∧ ts ≤ 32 ∧ nt ≤ 32
  | .tupleTree ts => 2 ≤ ts ∧ ts ≤ 6
  | .uuidQuadtree pfx => pfx ≠ []

/-- Every accepted configuration gives allowed parameters. -/
theorem goodParams_of_accepted {raw : Str → Bytes → Str} (hraw : HexDigests raw) {config : Dict Str Json} {l l' : LayoutObj}
    (h : l.checkAndSet raw config true = .ok l') : GoodParams raw l' := by
  obtain ⟨-, h⟩ := (C50_accepts hraw).mp h
  cases h with
  | hashNTuple h1 h2 h3 h4 h5 h6 h7 h8 => exact ⟨h8, h6, h7⟩
  | tupleTree h1 h2 h3 h4 => exact ⟨h3, h4⟩
  | uuidQuadtree h1 h2 => exact h2

theorem isNat_natStr (n : Nat) : IsNat (.num (natStr n)) n := by
  have := IsNat.digits (natStr_ne_nil n) (fun c hc => natStr_isDigit' hc)
  rwa [intOf_natStr] at this

theorem config_writable {l : LayoutObj} {c : Dict Str Json} (h : l.config = some c) : Json.Writable (.obj c) := by
  cases l <;> simp only [LayoutObj.config, Option.some.injEq, reduceCtorEq] at h
  all_goals
    subst h
    refine .obj (by simp only [Dict.NK, Dict.keys, List.map_cons, List.map_nil]; decide) ?_
    intro p hp
    simp only [List.mem_cons, List.not_mem_nil, or_false] at hp
    rcases hp with rfl | hp
    · exact .str
    · first
      | (rcases hp with rfl | rfl | rfl
         · exact .str
         · exact .num
         · exact .num)
      | (subst hp; first | exact .num | exact .str)

theorem config_accepted {raw : Str → Bytes → Str} (hraw : HexDigests raw) {l l0 : LayoutObj} {c : Dict Str Json}
    (hc : l.config = some c) (hgood : GoodParams raw l) (hclass : l0.name = l.name) : l0.checkAndSet raw c true = .ok l := by
  rw [C50_accepts hraw]
  cases l <;> cases l0 <;> simp only [LayoutObj.config, Option.some.injEq, reduceCtorEq] at hc <;>
    first
    | (exfalso; revert hclass; simp only [LayoutObj.name]; decide)
    | skip
  · subst hc
    exact ⟨rfl, .hashNTuple rfl rfl (isNat_natStr _) rfl (isNat_natStr _) hgood.2.1 hgood.2.2 hgood.1⟩
  · subst hc
    exact ⟨rfl, .tupleTree rfl (isNat_natStr _) hgood.1 hgood.2⟩
  · subst hc
    exact ⟨rfl, .uuidQuadtree rfl hgood⟩

theorem name_safe (l : LayoutObj) : SafeName l.name := by cases l <;> simp only [LayoutObj.name] <;> decide

theorem configDir_eq (l : LayoutObj) : l.configDir = joinWith '/' [c!"extensions", l.name] := by
  unfold LayoutObj.configDir
  have : joinWith '/' [c!"extensions"] = c!"extensions" := rfl
  rw [← this, osPathJoin_joinWith]
  · rfl
  · intro w hw
    simp only [List.mem_cons, List.not_mem_nil, or_false] at hw
    subst hw
    exact SafeName.isComp (by decide)
  · exact (name_safe l).2.2.2

theorem configFile_eq (l : LayoutObj) : l.configFile = joinWith '/' [c!"extensions", l.name, c!"config.json"] := by
  unfold LayoutObj.configFile
  rw [configDir_eq, osPathJoin_joinWith]
  · rfl
  · intro w hw
    simp only [List.mem_cons, List.not_mem_nil, or_false] at hw
    rcases hw with rfl | rfl
    · exact SafeName.isComp (by decide)
    · exact SafeName.isComp (name_safe l)
  · decide

theorem resolve_configFile (root : Path) (l : LayoutObj) :
    FS.resolve root l.configFile = root ++ [c!"extensions", l.name, c!"config.json"] := by
  rw [configFile_eq, resolve_join]
  intro w hw
  simp only [List.mem_cons, List.not_mem_nil, or_false] at hw
  rcases hw with rfl | rfl | rfl
  · decide
  · exact name_safe l
  · decide

theorem resolve_configDir (root : Path) (l : LayoutObj) : FS.resolve root l.configDir = root ++ [c!"extensions", l.name] := by
  rw [configDir_eq, resolve_join]
  intro w hw
  simp only [List.mem_cons, List.not_mem_nil, or_false] at hw
  rcases hw with rfl | rfl
  · decide
  · exact name_safe l

/-- C50: parameters written to a storage root that has no configuration file for the layout are
read back, whatever parameters the object that reads them had, and nothing but the file and the
directories above it is touched. -/
theorem C50 {lib : JsonLib} (hlib : lib.Lawful) {raw : Str → Bytes → Str} (hraw : HexDigests raw) {s s' : FS} (h : s.WF)
    {root : Path} {l : LayoutObj} (hgood : GoodParams raw l)
    (hnew : look s (root ++ [c!"extensions", l.name, c!"config.json"]) = none)
    (hr : run (l.writeParams lib root) s = (s', .ok ())) :
    (∀ (l0 : LayoutObj) (required : Bool), l0.name = l.name → (required = true → l.config ≠ none) →
      l0.readParams lib raw s' root required = .ok l) ∧
    ∀ q, ¬ q <+: root ++ [c!"extensions", l.name, c!"config.json"] → look s' q = look s q := by
  unfold LayoutObj.writeParams at hr
  cases hc : l.config with
  | none =>
    rw [hc] at hr
    cases hr
    refine ⟨?_, fun _ _ => rfl⟩
    intro l0 req hl0 hreq
    have hreq' : req = false := by
      cases req
      · rfl
      · exact absurd rfl (hreq rfl)
    subst hreq'
    unfold LayoutObj.readParams
    rw [resolve_configFile, hl0, if_neg (by simp [exists_, hnew])]
    cases l <;> simp only [LayoutObj.config, reduceCtorEq] at hc <;> cases l0 <;>
      first
      | rfl
      | (exfalso; revert hl0; simp only [LayoutObj.name]; decide)
  | some c =>
    rw [hc] at hr
    dsimp only at hr
    rw [run_get, resolve_configFile, resolve_configDir, if_neg (by simp [exists_, hnew]), run_handle] at hr
    cases hx : run ((makedirs (root ++ [c!"extensions", l.name]) false).bind fun x =>
      writeFile (root ++ [c!"extensions", l.name, c!"config.json"]) (utf8 (lib.dumps (Json.obj c)))) s with
    | mk s2 r =>
      rw [hx] at hr
      cases r with
      | error e => simp at hr
      | ok u =>
        simp only [Prod.mk.injEq] at hr
        obtain ⟨rfl, -⟩ := hr
        obtain ⟨s1, u, h1, h2⟩ := run_bind_inv hx
        have hw := exec_write_ok h2
        have hl : look s2 (root ++ [c!"extensions", l.name, c!"config.json"]) = some (.file (utf8 (lib.dumps (.obj c)))) := by
          rw [hw.2.2.2, look_set hw.1, if_pos rfl]
        constructor
        · intro l0 req hl0 _
          unfold LayoutObj.readParams
          rw [resolve_configFile, hl0, if_pos (by simp [exists_, hl]), read_ok.mpr hl]
          dsimp only
          rw [hlib.loadb _ (config_writable hc)]
          exact config_accepted hraw hc hgood hl0
        · intro q hq
          rw [hw.2.2.2, look_set hw.1, if_neg (by rintro rfl; exact hq List.prefix_rfl)]
          refine run_makedirs_frame h1 ?_
          intro hpre
          exact hq (hpre.trans ⟨[c!"config.json"], by simp⟩)

/-- C50, writing succeeds where the extension directory is not there yet and nothing is in the
way. -/
theorem C50_writes (lib : JsonLib) {s : FS} (h : s.WF) {root : Path} (l : LayoutObj)
    (hdir : look s (root ++ [c!"extensions", l.name]) = none) (hroot : look s root = some .dir)
    (hext : ∀ b, look s (root ++ [c!"extensions"]) ≠ some (.file b)) :
    ∃ s', run (l.writeParams lib root) s = (s', .ok ()) := by
  unfold LayoutObj.writeParams
  have hnew : look s (root ++ [c!"extensions", l.name, c!"config.json"]) = none := by
    apply look_below_none h (p := root ++ [c!"extensions", l.name])
    · exact ⟨[c!"config.json"], by simp⟩
    · intro hc; have := congrArg List.length hc; simp at this
    · rw [hdir]; simp
  cases hc : l.config with
  | none => exact ⟨s, rfl⟩
  | some c =>
    dsimp only
    have hsafe : ∀ w ∈ root ++ [c!"extensions", l.name], SafeName w := by
      intro w hw
      rcases List.mem_append.mp hw with h1 | h1
      · exact look_names h hroot w h1
      · simp only [List.mem_cons, List.not_mem_nil, or_false] at h1
        rcases h1 with rfl | rfl
        · decide
        · exact name_safe l
    have hclear : Clear s (root ++ [c!"extensions", l.name]) := by
      have e : root ++ [c!"extensions", l.name] = root ++ [c!"extensions"] ++ [l.name] := by simp
      rw [e, clear_concat, clear_concat]
      refine ⟨⟨clear_of_dir h hroot, ?_⟩, ?_⟩
      · cases hl : look s (root ++ [c!"extensions"]) with
        | none => exact Or.inl rfl
        | some n =>
          cases n with
          | dir => exact Or.inr rfl
          | file b => exact absurd hl (hext b)
      · rw [← e]; exact Or.inl hdir
    obtain ⟨s1, h1, hw1, hl1⟩ := run_makedirs_ok h false hsafe hclear (Or.inr hdir)
    have hd1 : (root ++ [c!"extensions", l.name, c!"config.json"]).dropLast = root ++ [c!"extensions", l.name] := by
      have e : root ++ [c!"extensions", l.name, c!"config.json"] = root ++ [c!"extensions", l.name] ++ [c!"config.json"] := by simp
      rw [e, List.dropLast_concat]
    have hpre : ¬ root ++ [c!"extensions", l.name, c!"config.json"] <+: root ++ [c!"extensions", l.name] := by
      intro hcc
      have := hcc.length_le
      simp at this
    have hwr := exec_write (s := s1) (p := root ++ [c!"extensions", l.name, c!"config.json"]) (b := utf8 (lib.dumps (.obj c)))
      (by rw [hl1, if_neg hpre, hnew]; simp) (by rw [hd1, hl1, if_pos List.prefix_rfl])
    rw [run_get, resolve_configFile, resolve_configDir, if_neg (by simp [exists_, hnew]), run_handle, run_bind_ok h1]
    unfold writeFile
    rw [run_perform, hwr]
    exact ⟨_, rfl⟩

/-- C50, refusals: a configuration for another layout, or without a name, is refused. -/
theorem C50_refuses {raw : Str → Bytes → Str} {config : Dict Str Json} {l : LayoutObj}
    (h : Dict.get? config c!"extensionName" ≠ some (.str l.name)) : l.checkAndSet raw config true = .error .layoutException := by
  unfold LayoutObj.checkAndSet LayoutObj.checkName
  cases hn : Dict.get? config c!"extensionName" with
  | none => rfl
  | some j =>
    dsimp only
    rw [if_pos]
    intro hc
    cases j with
    | str m => simp only [Json.str?, Option.some.injEq] at hc; subst hc; exact h hn
    | _ => simp [Json.str?] at hc

/-- A layout without parameters cannot be opened in a storage root that holds a configuration file
for it: `AttributeError`. -/
theorem C50_no_params {lib : JsonLib} {raw : Str → Bytes → Str} {s : FS} {root : Path} {l : LayoutObj} (hl : l.config = none)
    {b : Bytes} {config : Dict Str Json} (hf : look s (root ++ [c!"extensions", l.name, c!"config.json"]) = some (.file b))
    (hb : lib.loadb b = some (.obj config)) (hn : Dict.get? config c!"extensionName" = some (.str l.name)) :
    l.readParams lib raw s root false = .error .attributeError := by
  unfold LayoutObj.readParams
  rw [resolve_configFile, if_pos (by simp [exists_, hf]), read_ok.mpr hf]
  dsimp only
  rw [hb]
  dsimp only
  unfold LayoutObj.checkAndSet LayoutObj.checkName
  rw [hn]
  dsimp only
  rw [if_neg (by simp [Json.str?])]
  cases l <;> first | rfl | simp [LayoutObj.config] at hl

example : GoodParams exHexRaw (.hashNTuple c!"sha256" 3 3) := ⟨⟨by decide, by decide, by decide⟩, by decide, by decide⟩

example : LayoutObj.checkAndSet exHexRaw
    [(c!"extensionName", .str c!"nnnn-uuid-quadtree"), (c!"prefix", .str c!"x:")] true (.uuidQuadtree c!"urn:uuid:") = .ok (.uuidQuadtree c!"x:") :=
  (C50_accepts exHexRaw_hex).mpr ⟨rfl, .uuidQuadtree rfl (by decide)⟩

end Ocfl
