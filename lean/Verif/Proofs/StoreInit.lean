import Verif.Proofs.StoreStructure
import Verif.Proofs.CreateDone
import Verif.Proofs.InventoryJson
import Verif.Props.StorageAdd

/-!
# Making a storage root
-/

namespace Ocfl
namespace Store

open Spec FS Prog

/-- Writing the parameters of a layout into a storage root without extensions. -/
theorem writeParams_made (lib : JsonLib) {s : FS} (h : s.WF) {root : Path} (l : LayoutObj) (hroot : look s root = some .dir)
    (hext : look s (root ++ [c!"extensions"]) = none) :
    ∃ s', run (l.writeParams lib root) s = (s', .ok ()) ∧ s'.WF ∧
      (l.config = none → s' = s) ∧
      (∀ c, l.config = some c → look s' (root ++ [c!"extensions", l.name, c!"config.json"]) = some (.file (utf8 (lib.dumps (.obj c))))) ∧
      ∀ q, look s' q = look s q ∨ l.config ≠ none ∧
        ((∃ b, q = root ++ [c!"extensions", l.name, c!"config.json"] ∧ look s' q = some (.file b)) ∨
          q <+: root ++ [c!"extensions", l.name] ∧ look s' q = some .dir) := by
  have hdir : look s (root ++ [c!"extensions", l.name]) = none :=
    look_below_none h (p := root ++ [c!"extensions"]) ⟨[l.name], by simp⟩ (by intro hc; have := congrArg List.length hc; simp at this)
      (by rw [hext]; simp)
  have hnew : look s (root ++ [c!"extensions", l.name, c!"config.json"]) = none :=
    look_below_none h (p := root ++ [c!"extensions"]) ⟨[l.name, c!"config.json"], by simp⟩
      (by intro hc; have := congrArg List.length hc; simp at this) (by rw [hext]; simp)
  unfold LayoutObj.writeParams
  cases hc : l.config with
  | none => exact ⟨s, rfl, h, fun _ => rfl, fun _ hc => (by cases hc), fun q => .inl rfl⟩
  | some c =>
    dsimp only
    have hsafe : ∀ w ∈ root ++ [c!"extensions", l.name, c!"config.json"], SafeName w := by
      intro w hw
      rcases List.mem_append.mp hw with h1 | h1
      · exact look_names h hroot w h1
      · simp only [List.mem_cons, List.not_mem_nil, or_false] at h1
        rcases h1 with rfl | rfl | rfl
        · decide
        · exact name_safe l
        · decide
    have hclear : Clear s (root ++ [c!"extensions", l.name]) := by
      have e : root ++ [c!"extensions", l.name] = root ++ [c!"extensions"] ++ [l.name] := by simp
      rw [e, clear_concat, clear_concat, ← e]
      exact ⟨⟨clear_of_dir h hroot, .inl hext⟩, .inl hdir⟩
    obtain ⟨s1, h1, hw1, hl1⟩ := run_makedirs_ok h false
      (fun w hw => hsafe w (by
        rcases List.mem_append.mp hw with h | h
        · exact List.mem_append_left _ h
        · refine List.mem_append_right _ ?_
          simp only [List.mem_cons, List.not_mem_nil, or_false] at h ⊢
          rcases h with h | h
          · exact .inl h
          · exact .inr (.inl h))) hclear (Or.inr hdir)
    have e : root ++ [c!"extensions", l.name, c!"config.json"] = root ++ [c!"extensions", l.name] ++ [c!"config.json"] := by simp
    have hd1 : (root ++ [c!"extensions", l.name, c!"config.json"]).dropLast = root ++ [c!"extensions", l.name] := by
      rw [e, List.dropLast_concat]
    have hpre : ¬ root ++ [c!"extensions", l.name, c!"config.json"] <+: root ++ [c!"extensions", l.name] := by
      intro hcc
      have := hcc.length_le
      simp at this
    have hfree : look s1 (root ++ [c!"extensions", l.name, c!"config.json"]) = none := by rw [hl1, if_neg hpre, hnew]
    have hpd : look s1 (root ++ [c!"extensions", l.name]) = some .dir := by rw [hl1, if_pos List.prefix_rfl]
    have hwr := exec_write (s := s1) (p := root ++ [c!"extensions", l.name, c!"config.json"]) (b := utf8 (lib.dumps (.obj c)))
      (by rw [hfree]; simp) (by rw [hd1]; exact hpd)
    rw [run_get, resolve_configFile, resolve_configDir, if_neg (by simp [exists_, hnew]), run_handle, run_bind_ok h1]
    unfold writeFile
    rw [run_perform, hwr]
    refine ⟨_, rfl, WF_set hw1 (by simp) (by rw [hd1]; exact hpd) hsafe (by rw [hfree]; simp), (fun h => by cases h),
      (fun c' hc' => by cases hc'; rw [look_set (by simp), if_pos rfl]), fun q => ?_⟩
    rw [look_set (by simp)]
    split_ifs with hq
    · exact .inr ⟨by simp, .inl ⟨_, hq, rfl⟩⟩
    · rw [hl1]
      split_ifs with hq'
      · exact .inr ⟨by simp, .inr ⟨hq', rfl⟩⟩
      · exact .inl rfl

theorem tvalue_root {isWord : Char → Bool} (hword : WordClass isWord) {v : Str} (hv : v ∈ supported) :
    contentToTvalue isWord (c!"ocfl_" ++ v) = c!"ocfl_" ++ v := by
  have hs : ∀ v ∈ supported, strip (c!"ocfl_" ++ v) = c!"ocfl_" ++ v ∧
      (c!"ocfl_" ++ v).take 40 = c!"ocfl_" ++ v ∧
      ∀ c ∈ c!"ocfl_" ++ v, c.toNat < 128 ∧ (c.isAlphanum || c = '_' || c = '.') = true := by decide
  obtain ⟨h1, h2, h3⟩ := hs v hv
  unfold contentToTvalue
  rw [h1, h2]
  conv_rhs => rw [← List.map_id (c!"ocfl_" ++ v)]
  refine List.map_congr_left ?_
  intro c hc
  obtain ⟨h4, h5⟩ := h3 c hc
  rw [hword c h4]
  rw [if_pos]
  · rfl
  · simp only [Bool.or_eq_true, decide_eq_true_eq] at h5 ⊢
    exact Or.inl (Or.inl h5)

/-- What `initialize` has made. -/
structure RootMade (E : Env) (s s' : FS) (base : Path) (spec : Str) (layout : Option LayoutObj) : Prop where
  absent : look s base = none
  wf : s'.WF
  dir : look s' base = some .dir
  frame : ∀ q, ¬ base <+: q → look s' q = look s q
  declaration : look s' (base ++ [c!"0=ocfl_" ++ spec]) = some (.file (utf8 (c!"ocfl_" ++ spec ++ c!"\n")))
  layoutFile : ∀ l, layout = some l →
    look s' (base ++ [c!"ocfl_layout.json"]) = some (.file (utf8 (E.lib.dumpsSorted (layoutDocument l))))
  params : ∀ l, layout = some l → ∀ l0 : LayoutObj, l0.name = l.name → l0.readParams E.lib E.raw s' base false = .ok l
  config : ∀ l c, layout = some l → l.config = some c →
    look s' (base ++ [c!"extensions", l.name, c!"config.json"]) = some (.file (utf8 (E.lib.dumps (.obj c))))
  only : ∀ w q, look s' (base ++ w :: q) ≠ none → q = [] ∧ w = c!"0=ocfl_" ++ spec ∨
    ∃ l, layout = some l ∧ (q = [] ∧ w = c!"ocfl_layout.json" ∨ l.config ≠ none ∧
      (w :: q = [c!"extensions", l.name, c!"config.json"] ∨ w :: q <+: [c!"extensions", l.name] ∧ look s' (base ++ w :: q) = some .dir))

theorem write_step {s : FS} (hw : s.WF) {base : Path} {w : Str} (hs : SafeName w) (hd : look s base = some .dir)
    (hn : look s (base ++ [w]) ≠ some .dir) (b : Bytes) : ∃ s', exec (.write (base ++ [w]) b) s = (s', .ok ()) ∧ s'.WF ∧
      ∀ q, look s' q = if q = base ++ [w] then some (.file b) else look s q := by
  have hpd : (base ++ [w]).dropLast = base := List.dropLast_concat
  refine ⟨_, exec_write hn (by rw [hpd]; exact hd), WF_set hw (by simp) (by rw [hpd]; exact hd) ?_ (fun h => absurd h hn), look_set (by simp)⟩
  intro x hx
  rcases List.mem_append.mp hx with h | h
  · exact look_names hw hd x h
  · rw [List.mem_singleton.mp h]; exact hs

/-- Writing a new storage root either makes all of it, or refuses and makes nothing. -/
theorem writeRoot_total {E : Env} (hlib : E.lib.Lawful) (hword : WordClass E.isWord) (hraw : Spec.HexDigests E.raw)
    (hcwd : ∀ w ∈ E.cwd, SafeName w) {s : FS} (hw : s.WF)
    (r : StorageRoot) {spec : Str} (hspec : spec ∈ supported) (layout : Option LayoutObj) (hlay : ∀ l, layout = some l → GoodParams E.raw l) :
    (∃ s', run (writeRoot E r spec layout) s = (s', .ok (absComps E.cwd r.root)) ∧ RootMade E s s' (absComps E.cwd r.root) spec layout) ∨
    ((∃ e, run (writeRoot E r spec layout) s = (s, .error e)) ∧
      (look s (absComps E.cwd r.root) ≠ none ∨ look s (absComps E.cwd (osPathSplit r.root).1) ≠ some .dir)) := by
  obtain ⟨hres, hsl⟩ := absComps_split E.cwd r.root
  unfold writeRoot
  generalize hsp : osPathSplit r.root = sp at hres hsl
  obtain ⟨parent, dir⟩ := sp
  dsimp only at hres hsl ⊢
  rw [run_bind, run_look]
  unfold fswOpen
  dsimp only
  by_cases hpd : look s (absComps E.cwd parent) = some .dir
  swap
  · right
    have : isdir s (absComps E.cwd parent) = false := by
      rw [Bool.eq_false_iff]; exact fun h => hpd (isdir_iff.mp h)
    rw [this]
    exact ⟨⟨_, rfl⟩, .inr hpd⟩
  rw [isdir_iff.mpr hpd]
  rw [if_pos rfl]
  dsimp only
  rw [run_get, hres]
  by_cases hab : look s (absComps E.cwd r.root) = none
  swap
  · right
    rw [if_pos]
    · exact ⟨⟨_, rfl⟩, .inl hab⟩
    · unfold exists_
      exact Option.isSome_iff_ne_none.mpr hab
  left
  rw [if_neg (by simp [exists_, hab])]
  have hsafe := absComps_safe hcwd r.root
  have hbase : ∃ d, absComps E.cwd r.root = absComps E.cwd parent ++ [d] := by
    rw [resolve_no_slash hsl] at hres
    rcases normStep_cases (absComps E.cwd parent) dir with e | e | e
    · rw [e] at hres; rw [← hres, hpd] at hab; cases hab
    · rw [e] at hres
      have := look_parent hw hpd
      rw [hres, hab] at this
      cases this
    · exact ⟨dir, by rw [← hres, e]⟩
  obtain ⟨d, hd⟩ := hbase
  have hclear : Clear s (absComps E.cwd r.root) := by
    rw [hd, clear_concat, ← hd]
    exact ⟨clear_of_dir hw hpd, .inl hab⟩
  obtain ⟨s1, h1, hw1, hl1⟩ := run_makedirs_ok hw true hsafe hclear (.inl rfl)
  rw [← run_makedir_absent hab] at h1
  have hl1 : ∀ q, look s1 q = if q = absComps E.cwd r.root then some .dir else look s q := by
    intro q
    rw [hl1]
    by_cases hq : q = absComps E.cwd r.root
    · subst hq; rw [if_pos List.prefix_rfl, if_pos rfl]
    · rw [if_neg hq]
      split_ifs with hp
      · have hp' : q <+: absComps E.cwd parent := by
          rw [hd] at hp hq
          rcases List.prefix_concat_iff.mp hp with h | h
          · exact absurd h hq
          · exact h
        by_cases he : q = absComps E.cwd parent
        · rw [he, hpd]
        · exact (look_prefix hw hp' he hpd).symm
      · rfl
  rw [run_bind_ok h1]
  generalize hB : absComps E.cwd r.root = base at *
  have hb1 : look s1 base = some .dir := by rw [hl1, if_pos rfl]
  rw [run_bind, run_look]
  rw [isdir_iff.mpr hb1]
  rw [if_pos rfl]
  dsimp only
  have hbelow : ∀ w q, look s1 (base ++ w :: q) = none := by
    intro w q
    rw [hl1, if_neg (by simp)]
    cases hl : look s (base ++ w :: q) with
    | none => rfl
    | some n =>
      have := FS.look_above hw (w :: q) (by simp) hl
      rw [hab] at this
      cases this
  -- the declaration
  have hds : SafeName (c!"0=ocfl_" ++ spec) := (show ∀ v ∈ supported, SafeName (c!"0=ocfl_" ++ v) by decide) spec hspec
  obtain ⟨s2, h2, hw2, hl2⟩ := write_step hw1 hds hb1 (by rw [hbelow]; simp) (utf8 (c!"ocfl_" ++ spec ++ c!"\n"))
  have hn : run (namasteWrite E.isWord base 0 (c!"ocfl_" ++ spec) []) s1 = (s2, .ok ()) := by
    unfold namasteWrite writeFile
    rw [tvalue_root hword hspec]
    have e : osPathJoin [] (namasteFilename 0 (c!"ocfl_" ++ spec)) = c!"0=ocfl_" ++ spec := rfl
    rw [e, resolve_name _ hds, run_perform]
    exact h2
  rw [run_bind_ok hn]
  have hb2 : look s2 base = some .dir := by
    rw [hl2, if_neg, hb1]
    intro h; have := congrArg List.length h; simp at this
  have hdecl2 : look s2 (base ++ [c!"0=ocfl_" ++ spec]) = some (.file (utf8 (c!"ocfl_" ++ spec ++ c!"\n"))) := by rw [hl2, if_pos rfl]
  have hframe2 : ∀ q, ¬ base <+: q → look s2 q = look s q := by
    intro q hq
    rw [hl2, if_neg, hl1, if_neg]
    · rintro rfl; exact hq List.prefix_rfl
    · rintro rfl; exact hq (List.prefix_append _ _)
  have honly2 : ∀ w q, look s2 (base ++ w :: q) ≠ none → q = [] ∧ w = c!"0=ocfl_" ++ spec := by
    intro w q h
    rw [hl2] at h
    split_ifs at h with hq
    · have := List.append_cancel_left hq
      simp only [List.cons.injEq] at this
      exact ⟨this.2, this.1⟩
    · exact absurd (hbelow w q) h
  cases layout with
  | none =>
    refine ⟨s2, rfl, hab, hw2, hb2, hframe2, hdecl2, (fun l h => by cases h), (fun l h => by cases h), (fun l _ h => by cases h), fun w q h => .inl (honly2 w q h)⟩
  | some l =>
    dsimp only
    have hne : c!"ocfl_layout.json" ≠ c!"0=ocfl_" ++ spec := by intro h; cases h
    obtain ⟨s3, h3, hw3, hl3⟩ := write_step hw2 (w := c!"ocfl_layout.json") (by decide) hb2 (by
      rw [hl2, if_neg, hbelow]
      · simp
      · intro h; have := List.append_cancel_left h; simp only [List.cons.injEq] at this; exact hne this.1) (utf8 (E.lib.dumpsSorted (layoutDocument l)))
    have hwf : run (writeFile (resolve base Store.layoutFile) (utf8 (E.lib.dumpsSorted (layoutDocument l)))) s2 = (s3, .ok ()) := by
      unfold writeFile
      rw [show resolve base Store.layoutFile = base ++ [c!"ocfl_layout.json"] from resolve_name base (by decide), run_perform]
      exact h3
    rw [run_bind_ok hwf]
    have hb3 : look s3 base = some .dir := by
      rw [hl3, if_neg, hb2]
      intro h; have := congrArg List.length h; simp at this
    have honly3 : ∀ w q, look s3 (base ++ w :: q) ≠ none → q = [] ∧ (w = c!"0=ocfl_" ++ spec ∨ w = c!"ocfl_layout.json") := by
      intro w q h
      rw [hl3] at h
      split_ifs at h with hq
      · have := List.append_cancel_left hq
        simp only [List.cons.injEq] at this
        exact ⟨this.2, .inr this.1⟩
      · obtain ⟨a, b⟩ := honly2 w q h
        exact ⟨a, .inl b⟩
    have hext3 : ∀ q, look s3 (base ++ c!"extensions" :: q) = none := by
      intro q
      by_contra h
      rcases (honly3 _ _ h).2 with h | h <;> cases h
    obtain ⟨s4, h4, hw4, hs4, hc4, hl4⟩ := writeParams_made E.lib hw3 l hb3 (hext3 [])
    rw [run_bind_ok h4]
    have hsame : ∀ q, (∀ t, q ≠ base ++ c!"extensions" :: t) → ¬ q <+: base → look s4 q = look s3 q := by
      intro q h1 h2
      rcases hl4 q with h | ⟨_, ⟨b, hq, _⟩ | ⟨hq, _⟩⟩
      · exact h
      · exact absurd hq (h1 _)
      · exfalso
        rcases List.prefix_or_prefix_of_prefix hq (List.prefix_append base _) with h | ⟨t, rfl⟩
        · exact h2 h
        · have ht := (List.prefix_append_right_inj base).mp hq
          cases t with
          | nil => exact h2 (by simp)
          | cons a t =>
            obtain ⟨rfl, _⟩ := List.cons_prefix_cons.mp ht
            exact h1 _ rfl
    have hnp : ∀ w q, ¬ base ++ w :: q <+: base := by
      intro w q h; have := h.length_le; simp at this; omega
    have hpar := C50 hlib hraw hw3 (hlay l rfl) (hext3 _) h4
    refine ⟨s4, rfl, hab, hw4, ?_, ?_, ?_, ?_, ?_, ?_, ?_⟩
    · rcases hl4 base with h | ⟨_, ⟨b, hq, _⟩ | ⟨_, h⟩⟩
      · rw [h, hb3]
      · have := congrArg List.length hq; simp at this
      · exact h
    · intro q hq
      by_cases hq' : q <+: base
      · have hbs := hw4
        have hd4 : look s4 base = some .dir := by
          rcases hl4 base with h | ⟨_, ⟨b, hq, _⟩ | ⟨_, h⟩⟩
          · rw [h, hb3]
          · have := congrArg List.length hq; simp at this
          · exact h
        have hne : q ≠ base := by rintro rfl; exact hq List.prefix_rfl
        rw [look_prefix hw4 hq' hne hd4, ← hframe2 q hq, look_prefix hw2 hq' hne hb2]
      · rw [hsame q (by rintro t rfl; exact hq (List.prefix_append _ _)) hq', hl3, if_neg, hframe2 q hq]
        rintro rfl; exact hq (List.prefix_append _ _)
    · rw [hsame _ (by intro t h; have := List.append_cancel_left h; cases this) (hnp _ _), hl3, if_neg, hdecl2]
      intro h; have := List.append_cancel_left h; simp only [List.cons.injEq] at this; exact hne this.1.symm
    · intro l' hl'
      cases hl'
      rw [hsame _ (by intro t h; have := List.append_cancel_left h; cases this) (hnp _ _), hl3, if_pos rfl]
    · intro l' hl' l0 h0
      cases hl'
      exact hpar.1 l0 false h0 (fun h => by cases h)
    · intro l' c hl' hc
      cases hl'
      exact hc4 c hc
    · intro w q h
      rcases hl4 (base ++ w :: q) with he | ⟨hc, ⟨b, hq, _⟩ | ⟨hq, hq'⟩⟩
      · rw [he] at h
        obtain ⟨a, b | b⟩ := honly3 w q h
        · exact .inl ⟨a, b⟩
        · exact .inr ⟨l, rfl, .inl ⟨a, b⟩⟩
      · exact .inr ⟨l, rfl, .inr ⟨hc, .inl (List.append_cancel_left hq)⟩⟩
      · exact .inr ⟨l, rfl, .inr ⟨hc, .inr ⟨(List.prefix_append_right_inj base).mp hq, hq'⟩⟩⟩

theorem layoutOf_cases {reg : Dict Str LayoutObj} {r r' : StorageRoot} {x : Option LayoutObj} (h : layoutOf reg r = (r', .ok x)) :
    r'.root = r.root ∧ r'.specVersion = r.specVersion ∧ r'.layout = x ∧
      ((∃ n l, r.layout = none ∧ r.layoutName = some n ∧ getLayout reg n = .ok l ∧ x = some l) ∨
        x = r.layout ∧ (r.layout = none → r.layoutName = none)) := by
  unfold layoutOf at h
  split at h
  · rename_i n h1 h2
    split at h
    · cases (Prod.mk.inj h).2
    · rename_i l hl
      obtain ⟨rfl, h⟩ := Prod.mk.inj h
      cases h
      exact ⟨rfl, rfl, rfl, .inl ⟨n, l, h1, h2, hl, rfl⟩⟩
  · rename_i hno
    obtain ⟨rfl, h⟩ := Prod.mk.inj h
    cases h
    refine ⟨rfl, rfl, rfl, .inr ⟨rfl, fun hn => ?_⟩⟩
    cases hx : r.layoutName with
    | none => rfl
    | some n => exact absurd hx (hno n hn)

theorem withParams_cases {E : Env} (hraw : Spec.HexDigests E.raw) {l l' : LayoutObj} {params : Option Str}
    (h : withParams E l params = .ok l') : l'.name = l.name ∧ (GoodParams E.raw l → GoodParams E.raw l') := by
  unfold withParams at h
  split at h
  · cases h; exact ⟨rfl, id⟩
  · split at h
    · cases h
    · rename_i config _
      unfold LayoutObj.checkAndSet at h
      split at h
      · cases h
      · have hc := (setParams_ok hraw).mp h
        cases hc with
        | hashNTuple h1 h2 h3 h4 h5 h6 h7 h8 => exact ⟨rfl, fun _ => ⟨h8, h6, h7⟩⟩
        | tupleTree h1 h2 h3 h4 => exact ⟨rfl, fun _ => ⟨h3, h4⟩⟩
        | uuidQuadtree h1 h2 => exact ⟨rfl, fun _ => h2⟩
    · cases h
    · cases h
    · cases h

/-- `initialize` either makes a storage root or changes nothing. -/
theorem initialize_total {E : Env} (hlib : E.lib.Lawful) (hword : WordClass E.isWord) (hraw : Spec.HexDigests E.raw)
    (hcwd : ∀ w ∈ E.cwd, SafeName w) {s : FS} (hw : s.WF) {reg : Dict Str LayoutObj}
    (hreg : ∀ n l, getLayout reg n = .ok l → GoodParams E.raw l) (r : StorageRoot) (hr : ∀ l, r.layout = some l → GoodParams E.raw l)
    (sv params : Option Str) :
    (∃ e, run (initializeRoot E reg r sv params) s = (s, .error e)) ∨
    ∃ s' r' spec, run (initializeRoot E reg r sv params) s = (s', .ok r') ∧ RootMade E s s' (absComps E.cwd r.root) spec r'.layout ∧
      r'.root = r.root ∧ r'.specVersion = some spec ∧ spec ∈ supported ∧ (∀ v, sv = some v → spec = v) ∧
      (∀ l, r'.layout = some l → GoodParams E.raw l) ∧
      (∀ l, r'.layout = some l → r.layout = none → ∃ n l0, r.layoutName = some n ∧ getLayout reg n = .ok l0 ∧ l0.name = l.name) ∧
      (r'.layout = none ↔ r.layout = none ∧ r.layoutName = none) := by
  unfold initializeRoot
  cases hl : layoutOf reg r with
  | mk r1 x =>
    cases x with
    | error e => exact .inl ⟨e, rfl⟩
    | ok layout =>
      dsimp only
      obtain ⟨hroot, hsv, hlay, hcases⟩ := layoutOf_cases hl
      have hg : ∀ l, layout = some l → GoodParams E.raw l := by
        intro l hl
        rcases hcases with ⟨n, l0, _, _, h3, h4⟩ | ⟨h1, _⟩
        · rw [hl] at h4; cases h4; exact hreg n l h3
        · exact hr l (by rw [← h1]; exact hl)
      split
      · exact .inl ⟨_, rfl⟩
      · rename_i layout' hp
        have hp' : layout = none ∧ layout' = none ∨ ∃ l l', layout = some l ∧ layout' = some l' ∧ withParams E l params = .ok l' := by
          cases layout with
          | none => cases hp; exact .inl ⟨rfl, rfl⟩
          | some l =>
            dsimp only at hp
            cases hx : withParams E l params with
            | error e => rw [hx] at hp; cases hp
            | ok l' => rw [hx] at hp; cases hp; exact .inr ⟨l, l', rfl, rfl, hx⟩
        cases hc : checkSpecVersion sv c!"1.1" r1.specVersion with
        | mk cur res =>
          cases res with
          | error e => exact .inl ⟨e, rfl⟩
          | ok u =>
            cases cur with
            | none => exact .inl ⟨_, rfl⟩
            | some spec =>
              dsimp only
              have hspec : spec ∈ supported ∧ ∀ v, sv = some v → spec = v := by
                unfold checkSpecVersion at hc
                dsimp only at hc
                split at hc
                · cases (Prod.mk.inj hc).2
                · rename_i v hv
                  split_ifs at hc with hm
                  · have e := (Prod.mk.inj hc).1
                    cases e
                    refine ⟨hm, ?_⟩
                    rintro v' rfl
                    rw [if_neg (by simp)] at hv
                    exact (Option.some.inj hv).symm
                  · cases (Prod.mk.inj hc).2
              have hg' : ∀ l, layout' = some l → GoodParams E.raw l := by
                intro l hl
                rcases hp' with ⟨_, h⟩ | ⟨l0, l', h1, h2, h3⟩
                · rw [h] at hl; cases hl
                · rw [h2] at hl; cases hl
                  exact (withParams_cases hraw h3).2 (hg l0 h1)
              rcases writeRoot_total hlib hword hraw hcwd hw r1 hspec.1 layout' hg' with ⟨s', h1, h2⟩ | ⟨⟨e, he⟩, _⟩
              · right
                rw [run_bind_ok h1]
                refine ⟨s', _, spec, rfl, by rw [← hroot]; exact h2, hroot, rfl, hspec.1, hspec.2, hg', ?_, ?_⟩
                · intro l hl hnone
                  dsimp only at hl
                  rcases hp' with ⟨_, h⟩ | ⟨l0, l', h1, h2, h3⟩
                  · rw [h] at hl; cases hl
                  · rw [h2] at hl; cases hl
                    rcases hcases with ⟨n, l1, _, h6, h7, h8⟩ | ⟨h6, _⟩
                    · rw [h1] at h8; cases h8
                      exact ⟨n, l0, h6, h7, (withParams_cases hraw h3).1.symm⟩
                    · rw [h1, hnone] at h6; cases h6
                · dsimp only
                  constructor
                  · intro hn
                    rcases hp' with ⟨h, _⟩ | ⟨l0, l', h1, h2, h3⟩
                    · rcases hcases with ⟨n, l1, _, h6, h7, h8⟩ | ⟨h6, h7⟩
                      · rw [h] at h8; cases h8
                      · rw [h] at h6; exact ⟨h6.symm, h7 h6.symm⟩
                    · rw [h2] at hn; cases hn
                  · rintro ⟨a, b⟩
                    rcases hp' with ⟨_, h⟩ | ⟨l0, l', h1, h2, h3⟩
                    · exact h
                    · rcases hcases with ⟨n, l1, _, h6, h7, h8⟩ | ⟨h6, h7⟩
                      · rw [b] at h6; cases h6
                      · rw [h1, a] at h6; cases h6
              · left
                exact ⟨e, run_bind_error he⟩

theorem layoutDocument_read {lib : JsonLib} (hlib : lib.Lawful) (l : LayoutObj) :
    ∃ d, lib.loadb (utf8 (lib.dumpsSorted (layoutDocument l))) = some (.obj d) ∧ Dict.get? d c!"extension" = some (.str l.name) ∧
      Dict.get? d c!"description" = some (.str (description l)) := by
  have e : (layoutDocument l).sortKeys = .obj [(c!"description", .str (description l)), (c!"extension", .str l.name)] := by
    unfold layoutDocument
    rw [Json.sortKeys_obj]
    rfl
  refine ⟨[(c!"description", .str (description l)), (c!"extension", .str l.name)], ?_, rfl, rfl⟩
  unfold JsonLib.dumpsSorted
  rw [e]
  refine hlib.loadb _ (.obj (by simp only [Dict.NK, Dict.keys, List.map_cons, List.map_nil]; decide) ?_)
  intro p hp
  simp only [List.mem_cons, List.not_mem_nil, or_false] at hp
  rcases hp with rfl | rfl <;> exact .str

/-- A new storage root is declared. -/
theorem RootMade.declared {E : Env} (hword : WordClass E.isWord) {s s' : FS} {base : Path} {spec : Str} {layout : Option LayoutObj}
    (h : RootMade E s s' base spec layout) (hspec : spec ∈ supported) : RootDeclared E s' base spec where
  supported := hspec
  declaration := by
    have hs : ∀ v ∈ supported, utf8Decode (utf8 (c!"ocfl_" ++ v ++ c!"\n")) = some (c!"ocfl_" ++ v ++ c!"\n") ∧
        univNewlines (c!"ocfl_" ++ v ++ c!"\n") = c!"ocfl_" ++ v ++ c!"\n" ∧ strip (c!"ocfl_" ++ v ++ c!"\n") = strip (c!"ocfl_" ++ v) := by decide
    obtain ⟨h1, h2, h3⟩ := hs spec hspec
    refine ⟨_, _, h.declaration, h1, ?_⟩
    rw [h2, isTvalue_iff]
    have := tvalue_root hword hspec
    unfold contentToTvalue at this ⊢
    rw [h3]
    exact this
  one := by
    intro t ht
    rcases h.only _ _ ht with ⟨_, e⟩ | ⟨l, _, ⟨_, e⟩ | ⟨_, e | ⟨e, _⟩⟩⟩
    · exact List.append_cancel_left (as := c!"0=") e
    · cases e
    · cases e
    · obtain ⟨e, _⟩ := List.cons_prefix_cons.mp e
      cases e

end Store
end Ocfl
