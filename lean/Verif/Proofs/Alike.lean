import Verif.Proofs.ValidatorVerdict
import Verif.Spec.SameContents

/-!
# Validation of directories with the same contents
-/

namespace Ocfl
open IV V Spec

theorem yields_checkContentDirectory (j : Json) : Yields (checkContentDirectory j) (fun a => ∀ x, a = some x → x ≠ c!".") := by
  unfold checkContentDirectory
  refine yields_bind' fun b => yields_ite (fun _ => ?_) (fun _ => yields_ret (by rintro x hx; cases hx))
  refine yields_bind' fun x => ?_
  split
  · refine yields_ite (fun _ => yields_bind' fun _ => yields_ret (by rintro x hx; cases hx)) (fun _ => ?_)
    refine yields_ite (fun _ => yields_bind' fun _ => yields_ret (by rintro x hx; cases hx)) (fun h => yields_ret ?_)
    rintro x hx rfl
    cases hx
    exact h (.inl rfl)
  · exact yields_bind' fun _ => yields_ret (by rintro x hx; cases hx)

theorem yields_algorithm {j : Json} (hwf : j.WF) {lax : Bool} : Yields (checkDigestAlgorithm lax j) (fun a => ∀ x, a = some (.str x) →
    (x = c!"sha512" ∨ x = c!"sha256") ∨ (lax = true ∧ Member j c!"digestAlgorithm" (.str x))) := by
  unfold checkDigestAlgorithm
  refine yields_bind' fun b => yields_ite (fun _ => ?_) (fun _ => ?_)
  · exact yields_bind' fun _ => yields_ret (by rintro x hx; cases hx; exact .inl (.inl rfl))
  · refine yields_bind (yields_lift _) fun a ha => yields_ite (fun _ => yields_ret (by rintro x hx; cases hx; exact .inl (.inl rfl))) (fun _ => ?_)
    refine yields_ite (fun h => yields_ret ?_) (fun _ => ?_)
    · rintro x hx
      cases hx
      exact .inr ⟨h, member_of_pyIndex ha hwf⟩
    refine yields_ite (fun h => yields_bind' fun _ => yields_ret ?_) (fun _ => yields_bind' fun _ => yields_ret (by rintro x hx; cases hx))
    rintro x hx
    cases hx
    cases h
    exact .inl (.inr rfl)

/-- What is known of the names of version directories. -/
def VName (v : Str) : Prop := SafeName v ∧ v.head? = some 'v'

theorem VName.counts {v : Str} (h : VName v) (r : Path) : ¬ Ignored (v :: r) := by
  have h := h.2
  rintro (⟨_, _, e⟩ | ⟨_, _, _, e⟩)
  · cases e; cases h
  · cases e; cases h

theorem counts_nil : ¬ Ignored [] := by
  rintro (⟨_, _, e⟩ | ⟨_, _, _, e⟩) <;> cases e

theorem counts_name (w : Str) : ¬ Ignored [w] := by
  rintro (⟨_, h, e⟩ | ⟨_, _, _, e⟩)
  · cases e; exact h rfl
  · cases e

theorem counts_extension (w : Str) : ¬ Ignored [c!"extensions", w] := by
  rintro (⟨_, _, e⟩ | ⟨_, _, h, e⟩)
  · cases e
  · cases e; exact h rfl

theorem counts_take {q : Path} (h : ¬ Ignored q) (n : Nat) : ¬ Ignored (q.take n) := by
  intro hi
  apply h
  rcases hi with ⟨r, hr, e⟩ | ⟨x, r, hr, e⟩
  · have := List.take_append_drop n q
    rw [e] at this
    exact .inl ⟨r ++ q.drop n, by simp [hr], by simpa using this.symm⟩
  · have := List.take_append_drop n q
    rw [e] at this
    exact .inr ⟨x, r ++ q.drop n, by simp [hr], by simpa using this.symm⟩

theorem yields_versions {isWord : Char → Bool} {lax : Bool} {alg : Json} {u : Option (List Str)} {j : Json} :
    Yields (versionsPart isWord lax alg u j) (fun vu => ∀ v ∈ vu.1, VName v) := by
  unfold versionsPart
  refine yields_bind' fun b => yields_ite (fun _ => ?_) (fun _ => yields_bind' fun _ => yields_ret (by simp))
  refine yields_bind' fun vs => ?_
  refine yields_bind (P := fun av => ∀ v ∈ av, VName v) ?_ fun av hav => yields_bind' fun _ => yields_ret hav
  intro av es h v hv
  obtain ⟨style, n, rfl⟩ := yields_validateVersionSequence vs av es h v hv
  exact ⟨styleName_safe _ _, styleName_head _ _⟩

/-- What is used of the attributes of an inventory. -/
structure Settled (lax : Bool) (j : Json) (r : Result) : Prop where
  alg : ∀ x, r.digestAlgorithm = .str x → (x = c!"sha512" ∨ x = c!"sha256") ∨ (lax = true ∧ Member j c!"digestAlgorithm" (.str x))
  versions : ∀ v ∈ r.allVersions, VName v
  content : r.contentDirectory ≠ c!"."

theorem settled_result {isWord : Char → Bool} {ds : Str} {force : Option Str} {j : Json} (hwf : j.WF) {lax : Bool} {r : Result} {ok : Bool}
    {es : List Entry} (h : validate isWord lax ds force j = .ok (r, ok, es)) : Settled lax j r := by
  have hb : Yields (validateBody isWord lax ds force j) (fun x => Settled lax j x.1) := by
    unfold validateBody
    refine yields_bind' fun id => yields_bind' fun spec => yields_bind (yields_algorithm hwf) fun a ha => ?_
    cases a with
    | none => exact yields_ret ⟨by rintro x hx; cases hx; exact .inl (.inl rfl), by simp, show c!"content" ≠ c!"." by decide⟩
    | some alg =>
      dsimp only
      refine yields_bind (yields_checkContentDirectory j) fun cd hcd => ?_
      have hcd : cd.getD c!"content" ≠ c!"." := by
        cases cd with
        | none => decide
        | some x => exact hcd x rfl
      have ha : ∀ x, alg = .str x → (x = c!"sha512" ∨ x = c!"sha256") ∨ (lax = true ∧ Member j c!"digestAlgorithm" (.str x)) :=
        fun x hx => ha x (by rw [hx])
      unfold IV.validateRest
      refine yields_bind' fun man => yields_bind yields_versions fun vu hvu => yields_bind' fun head => ?_
      refine yields_ite (fun _ => yields_ret ⟨ha, hvu, hcd⟩) (fun _ => yields_bind' fun _ => yields_bind' fun _ => yields_ret ⟨ha, hvu, hcd⟩)
  unfold validate at h
  split at h
  · cases h
  · rename_i res es' he
    cases h
    exact hb _ _ he
  · rename_i res es' he
    cases h
    exact hb _ _ he

namespace Validator
open W hiding bind
open FS

section
variable {α β σ : Type}

/-- Two steps that do the same up to the order of log entries. -/
def Alike (r : α → α → Prop) : W α → W α → Prop
  | .done a es, .done b es' => r a b ∧ es.Perm es'
  | .abort es, .abort es' => es.Perm es'
  | .raised e, .raised e' => e = e'
  | _, _ => False

theorem alike_of_eq {r : α → α → Prop} (hr : ∀ a, r a a) {x y : W α} (h : x = y) : Alike r x y := by
  subst h
  cases x with
  | done a es => exact ⟨hr a, List.Perm.refl _⟩
  | abort es => exact List.Perm.refl _
  | raised e => exact rfl

theorem alike_ret {r : α → α → Prop} {a b : α} (h : r a b) : Alike r (ret a) (ret b) := ⟨h, List.Perm.refl _⟩

theorem alike_after {r : α → α → Prop} {x y : W α} (h : Alike r x y) {es es' : List Entry} (he : es.Perm es') :
    Alike r (after es x) (after es' y) := by
  cases x <;> cases y <;> simp only [Alike, after] at h ⊢
  · exact ⟨h.1, he.append h.2⟩
  · exact he.append h
  · exact h

theorem alike_bind {r : α → α → Prop} {q : β → β → Prop} {x y : W α} {f g : α → W β} (h : Alike r x y)
    (hf : ∀ a b, r a b → (∃ es, x = .done a es) → Alike q (f a) (g b)) : Alike q (W.bind x f) (W.bind y g) := by
  cases x <;> cases y <;> simp only [Alike, W.bind] at h ⊢
  · exact alike_after (hf _ _ h.1 ⟨_, rfl⟩) h.2
  · exact h
  · exact h

theorem alike_ite {r : α → α → Prop} {p p' : Prop} [Decidable p] [Decidable p'] {x x' y y' : W α} (hp : p ↔ p')
    (h : p → Alike r x y) (h' : ¬ p → Alike r x' y') : Alike r (if p then x else x') (if p' then y else y') := by
  by_cases hq : p
  · rw [if_pos hq, if_pos (hp.mp hq)]; exact h hq
  · rw [if_neg hq, if_neg (fun h => hq (hp.mpr h))]; exact h' hq

theorem alike_forM {r : σ → σ → Prop} {f g : σ → α → W σ} : ∀ {l : List α},
    (∀ x ∈ l, ∀ a b, r a b → Alike r (f a x) (g b x)) → ∀ {a b : σ}, r a b → Alike r (forM f l a) (forM g l b)
  | [], _, _, _, h => alike_ret h
  | x :: l, hf, a, b, h => alike_bind (hf x (by simp) a b h) fun a' b' h' _ =>
      alike_forM (l := l) (fun y hy => hf y (by simp [hy])) h'

theorem alike_forEach {f g : α → W Unit} : ∀ {l : List α}, (∀ x ∈ l, Alike (fun _ _ => True) (f x) (g x)) →
    Alike (fun _ _ => True) (forEach f l) (forEach g l)
  | [], _ => alike_ret trivial
  | x :: l, hf => alike_bind (hf x (by simp)) fun _ _ _ _ => alike_forEach (l := l) (fun y hy => hf y (by simp [hy]))

/-- Two lists with the same members. -/
def SameMembers (l l' : List α) : Prop := ∀ x, x ∈ l ↔ x ∈ l'

theorem forEach_done {body : α → W Unit} {out : α → List Entry} : ∀ {l : List α}, (∀ x ∈ l, body x = .done () (out x)) →
    forEach body l = .done () (l.flatMap out)
  | [], _ => rfl
  | x :: l, h => by
    show W.bind (body x) _ = _
    rw [h x (by simp)]
    show after (out x) (forEach body l) = _
    rw [forEach_done (l := l) fun y hy => h y (by simp [hy])]
    rfl

theorem forM_done {body : List β → α → W (List β)} {add : α → List β} {out : α → List Entry} : ∀ {l : List α},
    (∀ x ∈ l, ∀ seen, body seen x = .done (seen ++ add x) (out x)) →
    ∀ seen, forM body l seen = .done (seen ++ l.flatMap add) (l.flatMap out)
  | [], _, seen => by show W.done seen [] = _; simp
  | x :: l, h, seen => by
    show W.bind (body seen x) _ = _
    rw [h x (by simp)]
    show after (out x) (forM body l (seen ++ add x)) = _
    rw [forM_done (l := l) (fun y hy => h y (by simp [hy]))]
    simp [after]

/-- A loop over listings in different orders, each round of which always ends. -/
theorem perm_forEach {f g : α → W Unit} {l l' : List α} (hp : l.Perm l')
    (h : ∀ x ∈ l, ∃ es es', f x = .done () es ∧ g x = .done () es' ∧ es.Perm es') :
    ∃ es es', forEach f l = .done () es ∧ forEach g l' = .done () es' ∧ es.Perm es' := by
  choose! es es' h1 h2 h3 using h
  refine ⟨_, _, forEach_done h1, forEach_done (fun x hx => h2 x (hp.mem_iff.mpr hx)), ?_⟩
  exact (List.Perm.flatMap_left l h3).trans (hp.flatMap_right es')

/-- A loop over listings in different orders that collects. -/
theorem perm_forM {f g : List β → α → W (List β)} {l l' : List α} (hp : l.Perm l') {P : β → Prop}
    (h : ∀ x ∈ l, ∃ a es a' es', (∀ seen, f seen x = .done (seen ++ a) es) ∧ (∀ seen, g seen x = .done (seen ++ a') es') ∧
      SameMembers a a' ∧ (∀ y ∈ a, P y) ∧ es.Perm es') :
    ∃ a es a' es', (∀ seen, forM f l seen = .done (seen ++ a) es) ∧ (∀ seen, forM g l' seen = .done (seen ++ a') es') ∧
      SameMembers a a' ∧ (∀ y ∈ a, P y) ∧ es.Perm es' := by
  choose! a es a' es' h1 h2 h3 h4 h5 using h
  refine ⟨_, _, _, _, forM_done h1, forM_done (fun x hx => h2 x (hp.mem_iff.mpr hx)), ?_, ?_, ?_⟩
  · intro y
    rw [List.mem_flatMap, List.mem_flatMap]
    constructor
    · rintro ⟨x, hx, hy⟩
      exact ⟨x, hp.mem_iff.mp hx, (h3 x hx y).mp hy⟩
    · rintro ⟨x, hx, hy⟩
      exact ⟨x, hp.mem_iff.mpr hx, (h3 x (hp.mem_iff.mpr hx) y).mpr hy⟩
  · intro y hy
    obtain ⟨x, hx, hy⟩ := List.mem_flatMap.mp hy
    exact h4 x hx y hy
  · exact (List.Perm.flatMap_left l h5).trans (hp.flatMap_right es')

end

/-- Two directories with the same contents. -/
structure Twin (s : FS) (base : Path) (s' : FS) (base' : Path) : Prop where
  wf : s.WF
  wf' : s'.WF
  dir : look s base = some .dir
  same : SameApart s base s' base'

variable {E : Env} {cwd : Path} {cfg : Config} {s s' : FS} {base base' : Path}

theorem Twin.dir' (t : Twin s base s' base') : look s' base' = some .dir := by
  have := t.same [] counts_nil
  rw [List.append_nil, List.append_nil] at this
  rw [← this, t.dir]

theorem any_above (hw : s.WF) (hd : look s base = some .dir) (ws : Path) :
    (List.range (base ++ ws).length).any (fun n => isfile s ((base ++ ws).take n)) =
      (List.range ws.length).any (fun n => isfile s (base ++ ws.take n)) := by
  rw [Bool.eq_iff_iff]
  simp only [List.any_eq_true, List.mem_range, List.length_append]
  constructor
  · rintro ⟨n, hn, hf⟩
    by_cases hb : n ≤ base.length
    · exfalso
      rw [List.take_append_of_le_length hb] at hf
      have : look s (base.take n) = some .dir := by
        by_cases he : base.take n = base
        · rw [he, hd]
        · exact look_prefix hw (List.take_prefix n base) he hd
      unfold isfile at hf
      rw [this] at hf
      cases hf
    · refine ⟨n - base.length, by omega, ?_⟩
      rw [List.take_append, List.take_of_length_le (by omega)] at hf
      exact hf
  · rintro ⟨n, hn, hf⟩
    refine ⟨base.length + n, by omega, ?_⟩
    rw [List.take_append, List.take_of_length_le (by omega), show base.length + n - base.length = n by omega]
    exact hf

theorem Twin.missing (t : Twin s base s' base') {ws : Path} (hc : ¬ Ignored ws) : FS.missing s (base ++ ws) = FS.missing s' (base' ++ ws) := by
  unfold FS.missing
  rw [any_above t.wf t.dir, any_above t.wf' t.dir']
  have : (fun n => isfile s (base ++ ws.take n)) = (fun n => isfile s' (base' ++ ws.take n)) := by
    funext n
    unfold isfile
    rw [t.same _ (counts_take hc n)]
  rw [this]

theorem Twin.read (t : Twin s base s' base') {ws : Path} (hc : ¬ Ignored ws) : FS.read s (base ++ ws) = FS.read s' (base' ++ ws) := by
  unfold FS.read
  rw [t.same _ hc, t.missing hc]

theorem Twin.readText (t : Twin s base s' base') {ws : Path} (hc : ¬ Ignored ws) : Ocfl.readText s (base ++ ws) = Ocfl.readText s' (base' ++ ws) := by
  unfold Ocfl.readText
  rw [t.read hc]

theorem Twin.exists_ (t : Twin s base s' base') {ws : Path} (hc : ¬ Ignored ws) : FS.exists_ s (base ++ ws) = FS.exists_ s' (base' ++ ws) := by
  unfold FS.exists_
  rw [t.same _ hc]

theorem Twin.digestAt (t : Twin s base s' base') {ws : Path} (hc : ¬ Ignored ws) (alg : Str) :
    Ocfl.digestAt E s (base ++ ws) alg = Ocfl.digestAt { E with cwd := cwd } s' (base' ++ ws) alg := by
  unfold Ocfl.digestAt
  rw [t.read hc]

theorem Twin.children (t : Twin s base s' base') (ws : Path) (hc : ∀ w, ¬ Ignored (ws ++ [w])) : (FS.children s (base ++ ws)).Perm (FS.children s' (base' ++ ws)) := by
  rw [List.perm_ext_iff_of_nodup (List.Nodup.of_map _ (children_names_nodup t.wf _)) (List.Nodup.of_map _ (children_names_nodup t.wf' _))]
  rintro ⟨w, n⟩
  rw [mem_children t.wf, mem_children t.wf', List.append_assoc, List.append_assoc, t.same _ (hc w)]

/-- A file name that stays below the directory, and counts. -/
def Inside (file : Str) (ws : Path) : Prop := (∀ b, FS.resolve b file = b ++ ws) ∧ ¬ Ignored ws

theorem inside_name {w : Str} (h : SafeName w) : Inside w [w] := ⟨fun b => resolve_name b h, counts_name w⟩

theorem Twin.namastes (t : Twin s base s' base') : findNamastes s base 0 [] 10 = findNamastes s' base' 0 [] 10 := by
  obtain ⟨l, hn, hs, hm, hf⟩ := C52_find t.wf (base := base) (ws := []) (by simp) (dir := []) (.inl rfl) (by simpa using t.dir) 0
  obtain ⟨l', hn', hs', hm', hf'⟩ := C52_find t.wf' (base := base') (ws := []) (by simp) (dir := []) (.inl rfl) (by simpa using t.dir') 0
  have : l = l' := by
    refine sorted_unique ((List.perm_ext_iff_of_nodup hn hn').mpr fun x => ?_) hs hs'
    rw [hm, hm', List.append_nil, List.append_nil, t.same _ (counts_name _)]
  rw [hf, hf', this]

/-! ### Steps without listings -/

theorem Twin.declStep (t : Twin s base s' base') (sv : Option Str) (x : Str) :
    Validator.declStep E s base sv x = Validator.declStep { E with cwd := cwd } s' base' sv x := by
  unfold Validator.declStep
  cases hv : declVersion x with
  | none => rfl
  | some v =>
    obtain ⟨hsup, rfl⟩ := declVersion_some.mp hv
    have hres : Inside (osPathJoin [] (namasteFilename 0 (c!"ocfl_object_" ++ v))) [c!"0=ocfl_object_" ++ v] := by
      rw [osPathJoin_nil]
      refine inside_name ?_
      simp only [supported, List.mem_cons, List.not_mem_nil, or_false] at hsup
      rcases hsup with rfl | rfl <;> decide
    have : namasteContentOk E.isWord s base 0 (c!"ocfl_object_" ++ v) [] = namasteContentOk E.isWord s' base' 0 (c!"ocfl_object_" ++ v) [] := by
      unfold namasteContentOk namasteCheck
      rw [hres.1 base, hres.1 base', t.readText hres.2]
    dsimp only
    rw [this]

theorem Twin.checkDeclaration (t : Twin s base s' base') (l : List Str) :
    Validator.checkDeclaration E cfg s base l = Validator.checkDeclaration { E with cwd := cwd } cfg s' base' l := by
  unfold Validator.checkDeclaration
  have : Validator.declStep E s base = Validator.declStep { E with cwd := cwd } s' base' := by
    funext sv x
    exact t.declStep sv x
  rw [this]

theorem Twin.validateInventory (t : Twin s base s' base') {spec file : Str} {ws : Path} (h : Inside file ws) :
    Validator.validateInventory E cfg spec s base file = Validator.validateInventory { E with cwd := cwd } cfg spec s' base' file := by
  unfold Validator.validateInventory
  rw [h.1 base, h.1 base', t.readText h.2]

theorem stored_of_readText {lib : JsonLib} {p : Path} {t : Str} {j : Json} (h : Ocfl.readText s p = .ok t) (hj : lib.loads t = some j) :
    StoredJson lib s p j := by
  unfold Ocfl.readText FS.read at h
  cases hl : look s p with
  | none => rw [hl] at h; cases h
  | some n =>
    rw [hl] at h
    cases n with
    | dir => cases h
    | file b =>
      dsimp only at h
      cases hu : utf8Decode b with
      | none => rw [hu] at h; cases h
      | some t' =>
        rw [hu] at h
        cases h
        exact ⟨b, t', hl, hu, hj⟩

/-- The places of inventories. -/
def Place (q : Path) : Prop := q = [c!"inventory.json"] ∨ ∃ v, q = [v, c!"inventory.json"]

theorem settled_of (hE : E.lib.Lawful) {spec file : Str} {jr : Json × IV.Result} {es : List Entry} {ws : Path} (hin : Inside file ws)
    (h : Validator.validateInventory E cfg spec s base file = .done jr es) : StoredJson E.lib s (base ++ ws) jr.1 ∧ Settled cfg.lax jr.1 jr.2 := by
  unfold Validator.validateInventory at h
  rw [hin.1 base] at h
  split at h
  · cases h
  · cases h
  · rename_i text ht
    split at h
    · cases h
    · rename_i j hj
      split at h
      · cases h
      · rename_i r ok es' hv
        cases h
        exact ⟨stored_of_readText ht hj, settled_result (hE.wf _ _ hj) hv⟩

theorem plain_of (hplain : cfg.lax = true → PlainAlgorithms E.lib s base) {ws : Path} (hp : Place ws) {jr : Json × IV.Result}
    (h : StoredJson E.lib s (base ++ ws) jr.1 ∧ Settled cfg.lax jr.1 jr.2) {a : Str} (ha : jr.2.digestAlgorithm = .str a) : '/' ∉ a := by
  rcases h.2.alg a ha with (rfl | rfl) | ⟨hl, hm⟩
  · decide
  · decide
  · exact hplain hl ws _ a hp h.1 hm

theorem Twin.digestMatch (t : Twin s base s' base') {invFile digestFile : Str} {ws ws' : Path} (h : Inside invFile ws) (h' : Inside digestFile ws') :
    Validator.validateDigestMatch E cfg s base invFile digestFile = Validator.validateDigestMatch { E with cwd := cwd } cfg s' base' invFile digestFile := by
  unfold Validator.validateDigestMatch
  have : ∀ alg, sidecarDigests E s base invFile digestFile alg = sidecarDigests { E with cwd := cwd } s' base' invFile digestFile alg := by
    intro alg
    unfold sidecarDigests readInventoryDigest
    rw [h.1 base, h.1 base', h'.1 base, h'.1 base', t.readText h'.2, t.digestAt (cwd := cwd) h.2]
  simp only [this]

theorem inside_in {dir w : Str} {vd : Path} (hv : VDir dir vd) (hc : dir = [] ∨ VName dir) (h : SafeName w) : Inside (osPathJoin dir w) (vd ++ [w]) := by
  refine ⟨fun b => by rw [hv.resolve_in b h, List.append_assoc], ?_⟩
  cases hv with
  | root => exact counts_name w
  | version hs =>
    rcases hc with rfl | hc
    · exact absurd rfl hs.1
    · exact hc.counts _

theorem Twin.inventoryDigest (t : Twin s base s' base') {dir alg : Str} {vd : Path} (hv : VDir dir vd) (hc : dir = [] ∨ VName dir) (hslash : '/' ∉ alg) :
    Validator.validateInventoryDigest E cfg s base (osPathJoin dir inventoryFilename) alg =
      Validator.validateInventoryDigest { E with cwd := cwd } cfg s' base' (osPathJoin dir inventoryFilename) alg := by
  have hfile : osPathJoin dir c!"inventory.json" ++ c!"." ++ alg = osPathJoin dir (c!"inventory.json." ++ alg) := by
    cases hv with
    | root => rfl
    | version hsafe =>
      have e1 : ∀ w, '/' ∉ w → osPathJoin dir w = joinWith '/' [dir, w] := by
        intro w hw
        have := osPathJoin_joinWith (ws := [dir]) (b := w) (by simpa using SafeName.isComp hsafe) hw
        simpa [joinWith] using this
      rw [e1 _ (by decide), e1 (c!"inventory.json." ++ alg) (by
        intro hm
        rcases List.mem_append.mp hm with hm | hm
        · revert hm; decide
        · exact hslash hm)]
      simp [joinWith]
  have h1 : Inside (osPathJoin dir inventoryFilename) (vd ++ [c!"inventory.json"]) := inside_in hv hc (by decide)
  have h2 : Inside (osPathJoin dir (c!"inventory.json." ++ alg)) (vd ++ [c!"inventory.json." ++ alg]) := inside_in hv hc (sidecar_safe hslash)
  unfold Validator.validateInventoryDigest
  dsimp only
  rw [show osPathJoin dir inventoryFilename ++ c!"." ++ alg = _ from hfile, h2.1 base, h2.1 base', t.exists_ h2.2, t.digestMatch (cwd := cwd) h1 h2]

theorem Twin.priorInventory (hE : E.lib.Lawful) (hplain : cfg.lax = true → PlainAlgorithms E.lib s base) (t : Twin s base s' base') {root : Root} {st : VState} {v : Str} (hv : VName v) :
    Validator.priorInventory E cfg s base root st v = Validator.priorInventory { E with cwd := cwd } cfg s' base' root st v := by
  have hin : Inside (osPathJoin v inventoryFilename) [v, c!"inventory.json"] := inside_in (VDir.version hv.1) (.inr hv) (by decide)
  unfold Validator.priorInventory
  dsimp only
  rw [← t.validateInventory (E := E) (cwd := cwd) (cfg := cfg) (spec := root.spec) hin]
  cases h : Validator.validateInventory E cfg root.spec s base (osPathJoin v inventoryFilename) with
  | raised e => rfl
  | abort es => rfl
  | done jr es =>
    have hs := settled_of hE hin h
    unfold W.bind
    dsimp only
    cases ha : jr.2.digestAlgorithm with
    | str a =>
      have hax := plain_of hplain (.inr ⟨v, rfl⟩) hs ha
      unfold algStr py
      dsimp only
      rw [← t.inventoryDigest (E := E) (cwd := cwd) (cfg := cfg) (VDir.version hv.1) (.inr hv) hax]
      rfl
    | _ => rfl

theorem Twin.lastInventory (t : Twin s base s' base') {root : Root} (halg : '/' ∉ root.alg) {st : VState} {v : Str} (hv : VName v) :
    Validator.lastInventory E cfg s base root st v = Validator.lastInventory { E with cwd := cwd } cfg s' base' root st v := by
  have hin : Inside (osPathJoin v inventoryFilename) [v, c!"inventory.json"] := inside_in (VDir.version hv.1) (.inr hv) (by decide)
  have hin0 : Inside inventoryFilename [c!"inventory.json"] := inside_name (by decide)
  unfold Validator.lastInventory
  dsimp only
  have : filesIdenticalAt E s base (osPathJoin v inventoryFilename) inventoryFilename =
      filesIdenticalAt { E with cwd := cwd } s' base' (osPathJoin v inventoryFilename) inventoryFilename := by
    unfold filesIdenticalAt
    rw [hin.1 base, hin.1 base', hin0.1 base, hin0.1 base', t.same _ hin.2, t.same _ hin0.2, t.missing hin.2, t.missing hin0.2]
  rw [this, t.inventoryDigest (cwd := cwd) (VDir.version hv.1) (.inr hv) halg]

theorem forM_congr {σ α : Type} {f g : σ → α → W σ} : ∀ {l : List α}, (∀ x ∈ l, ∀ a, f a x = g a x) → ∀ a, W.forM f l a = W.forM g l a
  | [], _, _ => rfl
  | x :: l, h, a => by
    show W.bind (f a x) _ = W.bind (g a x) _
    rw [h x (by simp)]
    congr 1
    funext b
    exact forM_congr (fun y hy => h y (by simp [hy])) b

theorem Twin.versionInventories (hE : E.lib.Lawful) (hplain : cfg.lax = true → PlainAlgorithms E.lib s base) (t : Twin s base s' base') {root : Root}
    (halg : '/' ∉ root.alg) {vds : List Str} (hvs : ∀ v ∈ vds, VName v) :
    validateVersionInventories E cfg s base root vds = validateVersionInventories { E with cwd := cwd } cfg s' base' root vds := by
  unfold validateVersionInventories
  refine forM_congr (fun v hv st => ?_) _
  have hv := hvs v hv
  have hin : Inside (osPathJoin v inventoryFilename) [v, c!"inventory.json"] := inside_in (VDir.version hv.1) (.inr hv) (by decide)
  unfold versionInventory
  rw [hin.1 base, hin.1 base', t.exists_ hin.2, t.lastInventory (cwd := cwd) halg hv, t.priorInventory (cwd := cwd) hE hplain hv]

/-! ### Steps with listings -/

theorem errUnless_done (c : Bool) (code : Str) : ∃ es, errUnless c code = .done () es := by
  cases c <;> exact ⟨_, rfl⟩

theorem Twin.objectRoot (t : Twin s base s' base') {spec alg : Str} {vds already : List Str} :
    Alike (fun _ _ => True) (validateObjectRoot s base spec alg vds already) (validateObjectRoot s' base' spec alg vds already) := by
  unfold validateObjectRoot
  dsimp only
  rw [listdir_root t.dir, listdir_root t.dir']
  unfold py
  dsimp only
  refine alike_bind (r := fun l l' => l = (FS.children s base).map (fun e => (e.1, decide (e.2 = .dir))) ∧
    l' = (FS.children s' base').map (fun e => (e.1, decide (e.2 = .dir)))) ⟨⟨rfl, rfl⟩, List.Perm.refl _⟩ ?_
  rintro l l' ⟨rfl, rfl⟩ -
  have hp : ((FS.children s base).map (fun e => (e.1, decide (e.2 = .dir)))).Perm ((FS.children s' base').map (fun e => (e.1, decide (e.2 = .dir)))) := by
    have := t.children [] counts_name
    rw [List.append_nil, List.append_nil] at this
    exact this.map _
  suffices h : ∃ es es', forEach (rootEntry s base vds ([c!"0=ocfl_object_" ++ spec, inventoryFilename, c!"inventory.json." ++ alg] ++ already))
        ((FS.children s base).map (fun e => (e.1, decide (e.2 = .dir)))) = .done () es ∧
      forEach (rootEntry s' base' vds ([c!"0=ocfl_object_" ++ spec, inventoryFilename, c!"inventory.json." ++ alg] ++ already))
        ((FS.children s' base').map (fun e => (e.1, decide (e.2 = .dir)))) = .done () es' ∧ es.Perm es' by
    obtain ⟨es, es', h1, h2, h3⟩ := h
    rw [h1, h2]
    exact ⟨trivial, h3⟩
  refine perm_forEach hp ?_
  intro x hx
  obtain ⟨⟨w, nd⟩, hm, rfl⟩ := List.mem_map.mp hx
  rw [mem_children t.wf] at hm
  unfold rootEntry
  dsimp only
  split
  · obtain ⟨es, h⟩ := errUnless_done (decide (w ∈ ([c!"0=ocfl_object_" ++ spec, inventoryFilename, c!"inventory.json." ++ alg] ++ already))) c!"E001a"
    exact ⟨es, es, h, h, List.Perm.refl _⟩
  rename_i hdir
  split
  · exact ⟨_, _, rfl, rfl, List.Perm.refl _⟩
  split
  · exact ⟨_, _, rfl, rfl, List.Perm.refl _⟩
  split
  · rename_i hx
    subst hx
    have : nd = .dir := by
      cases nd with
      | dir => rfl
      | file b => exact absurd rfl hdir
    subst this
    have hm' : look s' (base' ++ [c!"extensions"]) = some .dir := by rw [← t.same _ (counts_name _)]; exact hm
    unfold validateExtensionsDir
    rw [listdir_name safe_extensions hm, listdir_name safe_extensions hm']
    have hp := (t.children [c!"extensions"] counts_extension).map (fun e => (c!"extensions" ++ '/' :: e.1, decide (e.2 = .dir)))
    obtain ⟨es, es', h1, h2, h3⟩ := perm_forEach (f := fun e : Str × Bool => if e.2 then (if e.1 ∈ registeredExtensions then ret () else warn c!"W013") else err c!"E067") 
      (g := fun e : Str × Bool => if e.2 then (if e.1 ∈ registeredExtensions then ret () else warn c!"W013") else err c!"E067") hp (by
        intro x _
        split
        · split
          · exact ⟨_, _, rfl, rfl, List.Perm.refl _⟩
          · exact ⟨_, _, rfl, rfl, List.Perm.refl _⟩
        · exact ⟨_, _, rfl, rfl, List.Perm.refl _⟩)
    refine ⟨es, es', ?_, ?_, h3⟩
    · show after [] (forEach _ _) = _
      rw [h1]; rfl
    · show after [] (forEach _ _) = _
      rw [h2]; rfl
  split
  · exact ⟨_, _, rfl, rfl, List.Perm.refl _⟩
  · exact ⟨_, _, rfl, rfl, List.Perm.refl _⟩

theorem forEach_map' {α β : Type} (body : β → W Unit) (f : α → β) : ∀ l : List α, forEach body (l.map f) = forEach (fun x => body (f x)) l
  | [] => rfl
  | x :: l => by
    show W.bind (body (f x)) (fun _ => forEach body (l.map f)) = _
    rw [forEach_map' body f l]
    rfl

/-- The end of `contentFiles`. -/
theorem contentFiles_done {p : Str} {visits : List Visit} {es : List Entry} (hw : fswWalk s base p = .ok visits)
    (he : forEach (fun v => errUnless (v.dirpath = '/' :: p || v.dirs.length + v.files.length ≠ 0) c!"E024") visits = .done () es) :
    contentFiles s base p = .done (visits.flatMap (fun v => v.files.map (fun f => lstripSlash (osPathJoin v.dirpath f))))
      (es ++ (if visits.flatMap (fun v => v.files.map (fun f => lstripSlash (osPathJoin v.dirpath f))) = [] then [⟨false, c!"W003"⟩] else [])) := by
  unfold contentFiles
  rw [hw]
  show after [] (W.bind (forEach _ visits) _) = _
  rw [he]
  dsimp only [W.bind]
  generalize (visits.flatMap (fun v => v.files.map (fun f => lstripSlash (osPathJoin v.dirpath f)))) = files
  cases files <;> simp [after, W.warn, W.ret]

theorem Twin.contentFiles (t : Twin s base s' base') {v cd : Str} (hvn : VName v) {nd : Node} (hl : look s (base ++ [v, cd]) = some nd) :
    ∃ a es a' es', Validator.contentFiles s base (osPathJoin v cd) = .done a es ∧ Validator.contentFiles s' base' (osPathJoin v cd) = .done a' es' ∧
      SameMembers a a' ∧ (∀ p ∈ a, ∃ ws, Inside p ws) ∧ es.Perm es' := by
  have hv := hvn.1
  have hsub : ∀ r, look s (base ++ ([v, cd] ++ r)) = look s' (base' ++ ([v, cd] ++ r)) := fun r => t.same _ (hvn.counts _)
  have hc : SafeName cd := look_names t.wf hl cd (by simp)
  have hws : ∀ w ∈ [v, cd], SafeName w := by simp [hv, hc]
  have hj : osPathJoin v cd = joinWith '/' [v, cd] := by
    have := osPathJoin_joinWith (ws := [v]) (b := cd) (by simpa using SafeName.isComp hv) hc.2.2.2
    simpa [joinWith] using this
  have hl' : look s' (base' ++ [v, cd]) = some nd := by rw [← t.same _ (hvn.counts _)]; exact hl
  rw [hj]
  cases nd with
  | file b =>
    have he : forEach (fun w : Visit => errUnless (w.dirpath = '/' :: joinWith '/' [v, cd] || w.dirs.length + w.files.length ≠ 0) c!"E024")
        [⟨dstr [v, cd], [], []⟩] = .done () [] := by
      have : (decide (dstr [v, cd] = '/' :: joinWith '/' [v, cd])) = true := decide_eq_true rfl
      simp [forEach, errUnless, this, W.bind, W.ret, after]
    refine ⟨_, _, _, _, contentFiles_done (walk_of_file hv hc hl) he, contentFiles_done (walk_of_file hv hc hl') he, ?_, ?_, ?_⟩
    · exact fun _ => Iff.rfl
    · intro p hp; simp at hp
    · exact List.Perm.refl _
  | dir =>
    generalize hT : treeWalk (fun ws => dirNames s (base ++ ws)) (FS.depth s) [v, cd] = T
    generalize hT' : treeWalk (fun ws => dirNames s' (base' ++ ws)) (FS.depth s') [v, cd] = T'
    have hTm : ∀ q, q ∈ T ↔ [v, cd] <+: q ∧ look s (base ++ q) = some .dir := by
      intro q
      rw [← hT]
      exact mem_treeWalk_dirs t.wf hl
    have hTm' : ∀ q, q ∈ T' ↔ [v, cd] <+: q ∧ look s (base ++ q) = some .dir := by
      intro q
      rw [← hT', mem_treeWalk_dirs t.wf' hl']
      constructor
      · rintro ⟨⟨r, rfl⟩, h⟩
        exact ⟨⟨r, rfl⟩, by rw [hsub]; exact h⟩
      · rintro ⟨⟨r, rfl⟩, h⟩
        exact ⟨⟨r, rfl⟩, by rw [← hsub]; exact h⟩
    have hp : T.Perm T' := by
      refine (List.perm_ext_iff_of_nodup ?_ ?_).mpr fun q => by rw [hTm, hTm']
      · rw [← hT]; exact treeWalk_nodup (fun ws => dirNames_nodup t.wf _) _ _
      · rw [← hT']; exact treeWalk_nodup (fun ws => dirNames_nodup t.wf' _) _ _
    have hdirs : ∀ q, [v, cd] <+: q → (dirNames s (base ++ q)).length = (dirNames s' (base' ++ q)).length := fun q hq =>
      ((List.perm_ext_iff_of_nodup (dirNames_nodup t.wf _) (dirNames_nodup t.wf' _)).mpr fun w => by
        obtain ⟨r, rfl⟩ := hq
        rw [mem_dirNames t.wf, mem_dirNames t.wf', List.append_assoc, List.append_assoc, List.append_assoc, hsub, List.append_assoc]).length_eq
    have hfm : ∀ q, [v, cd] <+: q → ∀ w, w ∈ fileNames s (base ++ q) ↔ w ∈ fileNames s' (base' ++ q) := fun q hq w => by
      obtain ⟨r, rfl⟩ := hq
      rw [mem_fileNames t.wf, mem_fileNames t.wf', List.append_assoc, List.append_assoc, List.append_assoc, hsub, List.append_assoc]
    have hfiles : ∀ q, [v, cd] <+: q → (fileNames s (base ++ q)).length = (fileNames s' (base' ++ q)).length := fun q hq =>
      ((List.perm_ext_iff_of_nodup (fileNames_nodup t.wf _) (fileNames_nodup t.wf' _)).mpr (hfm q hq)).length_eq
    have hw1 := fswWalk_eq t.wf hws hl (.inl rfl)
    have hw2 := fswWalk_eq t.wf' hws hl' (.inl rfl)
    rw [hT] at hw1
    rw [hT'] at hw2
    obtain ⟨es, es', h1, h2, h3⟩ := perm_forEach
      (f := fun q => errUnless ((visitOf s base q).dirpath = '/' :: joinWith '/' [v, cd] || (visitOf s base q).dirs.length + (visitOf s base q).files.length ≠ 0) c!"E024")
      (g := fun q => errUnless ((visitOf s' base' q).dirpath = '/' :: joinWith '/' [v, cd] || (visitOf s' base' q).dirs.length + (visitOf s' base' q).files.length ≠ 0) c!"E024")
      hp (by
        intro q hq
        have hq := ((hTm q).mp hq).1
        have e : ((visitOf s base q).dirpath = '/' :: joinWith '/' [v, cd] || (visitOf s base q).dirs.length + (visitOf s base q).files.length ≠ 0) =
            ((visitOf s' base' q).dirpath = '/' :: joinWith '/' [v, cd] || (visitOf s' base' q).dirs.length + (visitOf s' base' q).files.length ≠ 0) := by
          unfold visitOf
          dsimp only
          rw [hdirs q hq, hfiles q hq]
        rw [e]
        obtain ⟨es, h⟩ := errUnless_done ((visitOf s' base' q).dirpath = '/' :: joinWith '/' [v, cd] || (visitOf s' base' q).dirs.length + (visitOf s' base' q).files.length ≠ 0) c!"E024"
        exact ⟨es, es, h, h, List.Perm.refl _⟩)
    rw [← forEach_map' (fun w : Visit => errUnless (w.dirpath = '/' :: joinWith '/' [v, cd] || w.dirs.length + w.files.length ≠ 0) c!"E024") (visitOf s base)] at h1
    rw [← forEach_map' (fun w : Visit => errUnless (w.dirpath = '/' :: joinWith '/' [v, cd] || w.dirs.length + w.files.length ≠ 0) c!"E024") (visitOf s' base')] at h2
    have hmem : SameMembers ((T.map (visitOf s base)).flatMap (fun v => v.files.map (fun f => lstripSlash (osPathJoin v.dirpath f))))
        ((T'.map (visitOf s' base')).flatMap (fun v => v.files.map (fun f => lstripSlash (osPathJoin v.dirpath f)))) := by
      intro p
      simp only [List.mem_flatMap, List.mem_map]
      constructor
      · rintro ⟨_, ⟨q, hq, rfl⟩, f, hf, rfl⟩
        exact ⟨_, ⟨q, hp.mem_iff.mp hq, rfl⟩, f, (hfm q ((hTm q).mp hq).1 f).mp hf, rfl⟩
      · rintro ⟨_, ⟨q, hq, rfl⟩, f, hf, rfl⟩
        exact ⟨_, ⟨q, hp.mem_iff.mpr hq, rfl⟩, f, (hfm q ((hTm' q).mp hq).1 f).mpr hf, rfl⟩
    refine ⟨_, _, _, _, contentFiles_done hw1 h1, contentFiles_done hw2 h2, hmem, ?_, ?_⟩
    · intro p hp
      obtain ⟨vis, hvis, hp⟩ := List.mem_flatMap.mp hp
      obtain ⟨q, hq, rfl⟩ := List.mem_map.mp hvis
      obtain ⟨f, hf, rfl⟩ := List.mem_map.mp hp
      obtain ⟨⟨ws, rfl⟩, hd⟩ := (hTm q).mp hq
      obtain ⟨b, hb⟩ := (mem_fileNames t.wf).mp hf
      have hb' : look s (base ++ ([v, cd] ++ ws ++ [f])) = some (.file b) := by simpa using hb
      have hsafe : ∀ w ∈ [v, cd] ++ ws ++ [f], SafeName w := fun w hwm => look_names t.wf hb' w (by
        rw [List.mem_append]; exact .inr hwm)
      have h2 : ∀ w ∈ [v, cd] ++ ws, SafeName w := fun w hwm => hsafe w (by rw [List.mem_append]; exact .inl hwm)
      refine ⟨[v, cd] ++ ws ++ [f], fun b => ?_, hvn.counts _⟩
      show FS.resolve b (lstripSlash (osPathJoin (dstr ([v, cd] ++ ws)) f)) = _
      rw [osPathJoin_dstr (isComp_list h2) (SafeName.isComp (hsafe f (by simp)))]
      rw [show lstripSlash (dstr ([v, cd] ++ ws ++ [f])) = joinWith '/' ([v, cd] ++ ws ++ [f]) from lstripSlash_slash (isComp_list hsafe)]
      exact FS.resolve_join b hsafe
    · refine h3.append ?_
      have : ∀ {l l' : List Str}, SameMembers l l' → (l = [] ↔ l' = []) := by
        intro l l' h
        rw [List.eq_nil_iff_forall_not_mem, List.eq_nil_iff_forall_not_mem]
        exact forall_congr' fun x => not_congr (h x)
      rw [show (if (T.map (visitOf s base)).flatMap (fun v => v.files.map (fun f => lstripSlash (osPathJoin v.dirpath f))) = [] then [(⟨false, c!"W003"⟩ : Entry)] else []) = 
        (if (T'.map (visitOf s' base')).flatMap (fun v => v.files.map (fun f => lstripSlash (osPathJoin v.dirpath f))) = [] then [⟨false, c!"W003"⟩] else []) from if_congr (this hmem) rfl rfl]

/-- The files seen: the same, and all inside. -/
def Seen (l l' : List Str) : Prop := SameMembers l l' ∧ ∀ p ∈ l, ∃ ws, Inside p ws

theorem Seen.append {l l' m m' : List Str} (h : Seen l l') (h1 : SameMembers m m') (h2 : ∀ p ∈ m, ∃ ws, Inside p ws) : Seen (l ++ m) (l' ++ m') := by
  refine ⟨fun x => ?_, fun p hp => ?_⟩
  · rw [List.mem_append, List.mem_append, h.1 x, h1 x]
  · rcases List.mem_append.mp hp with hp | hp
    · exact h.2 p hp
    · exact h2 p hp

theorem Twin.versionContent (t : Twin s base s' base') {cd : Str} (hcd : cd ≠ c!".") {df : Dict Str Str} {seen seen' : List Str} (hs : Seen seen seen')
    {v : Str} (hvn : VName v) :
    Alike Seen (Validator.versionContent E s base cd df seen v) (Validator.versionContent { E with cwd := cwd } s' base' cd df seen' v) := by
  have hv := hvn.1
  have hsame := t.same [v] (counts_name v)
  unfold Validator.versionContent
  cases hl : look s (base ++ [v]) with
  | none =>
    have h1 : ∀ {s : FS} {base : Path}, s.WF → look s base = some .dir → look s (base ++ [v]) = none → listdir s base v = .error .fileNotFound := by
      intro s base hw hd hl
      unfold listdir
      rw [resolve_name base hv]
      dsimp only
      rw [hl, missing_child hw hd]
    rw [h1 t.wf t.dir hl, h1 t.wf' t.dir' (by rw [← hsame]; exact hl)]
    exact alike_bind (r := fun _ _ => True) (alike_of_eq (fun _ => trivial) rfl) fun _ _ _ _ => alike_ret hs
  | some nd =>
    have hl' : look s' (base' ++ [v]) = some nd := by rw [← hsame]; exact hl
    cases nd with
    | file b =>
      have h1 : ∀ {s : FS} {base : Path}, look s (base ++ [v]) = some (.file b) → listdir s base v = .ok [(v, false)] := by
        intro s base hl
        unfold listdir
        rw [resolve_name base hv]
        dsimp only
        rw [hl]
        dsimp only
        rw [rstripSlash_name hv]
      rw [h1 hl, h1 hl']
      have hrel : ∀ c : Path, relpath c v v = .ok c!"." := by
        intro c
        unfold relpath
        have := sharedLength_append (absComps c v) []
        rw [List.append_nil] at this
        rw [if_neg hv.1]
        dsimp only
        rw [this]
        simp
      refine alike_bind (r := Seen) ?_ fun _ _ h _ => alike_ret h
      unfold versionEntry
      dsimp only
      rw [hrel, hrel]
      refine alike_bind (r := fun a b => a = c!"." ∧ b = c!".") ⟨⟨rfl, rfl⟩, List.Perm.refl _⟩ ?_
      rintro _ _ ⟨rfl, rfl⟩ -
      refine alike_ite Iff.rfl (fun _ => alike_ret hs) (fun _ => alike_ite Iff.rfl (fun h => absurd h.symm hcd) (fun _ => ?_))
      refine alike_ite ?_ (fun _ => ?_) (fun _ => ?_)
      · unfold FS.isdir
        rw [resolve_name base hv, resolve_name base' hv, hl, hl']
      · exact alike_bind (r := fun _ _ => True) (alike_of_eq (fun _ => trivial) rfl) fun _ _ _ _ => alike_ret hs
      · exact alike_bind (r := fun _ _ => True) (alike_of_eq (fun _ => trivial) rfl) fun _ _ _ _ => alike_ret hs
    | dir =>
      rw [listdir_name hv hl, listdir_name hv hl']
      have hp := (t.children [v] fun w => hvn.counts [w]).map (fun e => (v ++ '/' :: e.1, decide (e.2 = .dir)))
      obtain ⟨a, es, a', es', h1, h2, h3, h4, h5⟩ := perm_forM (f := versionEntry E s base cd df v)
        (g := versionEntry { E with cwd := cwd } s' base' cd df v) hp (P := fun p => ∃ ws, Inside p ws) (by
          intro x hx
          obtain ⟨⟨w, nd⟩, hm, rfl⟩ := List.mem_map.mp hx
          rw [mem_children t.wf] at hm
          have hm : look s (base ++ [v, w]) = some nd := by simpa using hm
          have hm' : look s' (base' ++ [v, w]) = some nd := by rw [← t.same _ (hvn.counts _)]; exact hm
          have hwn : SafeName w := look_names t.wf hm w (by simp)
          have hres : ∀ b, FS.resolve b (v ++ '/' :: w) = b ++ [v, w] := by
            intro b
            have := FS.resolve_join b (ws := [v, w]) (by simp [hv, hwn])
            simpa [joinWith] using this
          unfold versionEntry
          dsimp only
          rw [relpath_entry E.cwd hv hwn, relpath_entry cwd hv hwn]
          unfold py
          dsimp only [W.bind]
          by_cases c1 : w = inventoryFilename ∨ Dict.get? df v = some w
          · simp only [if_pos c1]
            exact ⟨[], [], [], [], fun seen => by simp [W.ret, after], fun seen => by simp [W.ret, after], fun _ => Iff.rfl, by simp, List.Perm.refl _⟩
          simp only [if_neg c1]
          by_cases c2 : w = cd
          · subst c2
            simp only [if_true]
            obtain ⟨a, es, a', es', e1, e2, e3, e4, e5⟩ := t.contentFiles hvn hm
            refine ⟨a, es, a', es', ?_, ?_, e3, e4, e5⟩
            · intro seen; rw [e1]; simp [W.ret, after]
            · intro seen; rw [e2]; simp [W.ret, after]
          simp only [if_neg c2]
          have hd : FS.isdir s (FS.resolve base (v ++ '/' :: w)) = FS.isdir s' (FS.resolve base' (v ++ '/' :: w)) := by
            unfold FS.isdir
            rw [hres, hres, hm, hm']
          rw [hd]
          cases FS.isdir s' (FS.resolve base' (v ++ '/' :: w)) with
          | true => exact ⟨[], [⟨false, c!"W002"⟩], [], [⟨false, c!"W002"⟩], fun seen => by simp [W.ret, after, W.warn], fun seen => by simp [W.ret, after, W.warn], fun _ => Iff.rfl, by simp, List.Perm.refl _⟩
          | false => exact ⟨[], [⟨true, c!"E015"⟩], [], [⟨true, c!"E015"⟩], fun seen => by simp [W.ret, after, W.err], fun seen => by simp [W.ret, after, W.err], fun _ => Iff.rfl, by simp, List.Perm.refl _⟩)
      dsimp only
      rw [h1, h2]
      exact ⟨hs.append h3 h4, h5⟩

theorem rootFixity_same {inv : Json} {l l' : List Str} (h : SameMembers l l') : rootFixity inv l = rootFixity inv l' := by
  have : ∀ x : Str, decide (x ∈ l) = decide (x ∈ l') := fun x => by
    rw [decide_eq_decide]; exact h x
  unfold rootFixity
  simp only [this]

theorem Twin.checkAdditional (t : Twin s base s' base') {p code : Str} {ws : Path} (h : Inside p ws) {rec : Recorded} :
    Validator.checkAdditional E s base p code rec = Validator.checkAdditional { E with cwd := cwd } s' base' p code rec := by
  unfold Validator.checkAdditional
  have : ∀ alg, Ocfl.digestAt E s (FS.resolve base p) alg = Ocfl.digestAt { E with cwd := cwd } s' (FS.resolve base' p) alg := by
    intro alg
    rw [h.1 base, h.1 base', t.digestAt h.2]
  simp only [this]

theorem Twin.manifestFile (t : Twin s base s' base') {alg : Str} {fixity : Recorded} {st : VState} {l l' : List Str} (hs : Seen l l') {entry : Str × Str} :
    Alike Seen (Validator.manifestFile E cfg s base alg fixity st l entry) (Validator.manifestFile { E with cwd := cwd } cfg s' base' alg fixity st l' entry) := by
  unfold Validator.manifestFile
  refine alike_ite (not_congr (hs.1 _)) (fun _ => ?_) (fun hm => ?_)
  · exact alike_bind (r := fun _ _ => True) (alike_of_eq (fun _ => trivial) rfl) fun _ _ _ _ => alike_ret hs
  · obtain ⟨ws, hin⟩ := hs.2 _ (not_not.mp hm)
    refine alike_bind (r := fun _ _ => True) (alike_of_eq (fun _ => trivial) ?_) fun _ _ _ _ => alike_ret ?_
    · rw [t.checkAdditional (cwd := cwd) hin, t.checkAdditional (cwd := cwd) hin, t.checkAdditional (cwd := cwd) hin, hin.1 base, hin.1 base', t.digestAt (cwd := cwd) hin.2]
    · refine ⟨fun x => ?_, fun p hp => hs.2 p (List.mem_filter.mp hp).1⟩
      rw [List.mem_filter, List.mem_filter, hs.1 x]

theorem Twin.content (t : Twin s base s' base') {root : Root} {st : VState} (hcd : root.res.contentDirectory ≠ c!".") {vds : List Str} (hvs : ∀ v ∈ vds, VName v) :
    Alike (fun _ _ => True) (validateContent E cfg s base root st vds) (validateContent { E with cwd := cwd } cfg s' base' root st vds) := by
  have h0 : Seen [] [] := ⟨fun _ => Iff.rfl, by simp⟩
  have hfor : Alike Seen (W.forM (Validator.versionContent E s base root.res.contentDirectory st.digestFiles) vds [])
      (W.forM (Validator.versionContent { E with cwd := cwd } s' base' root.res.contentDirectory st.digestFiles) vds []) :=
    alike_forM (fun v hv a b hab => t.versionContent (E := E) (cwd := cwd) (df := st.digestFiles) (v := v) hcd hab (hvs v hv)) h0
  unfold validateContent
  refine alike_bind hfor fun l l' hs _ => ?_
  rw [rootFixity_same hs.1]
  refine alike_bind (r := Eq) (alike_of_eq (fun _ => rfl) rfl) ?_
  rintro fx _ rfl -
  refine alike_bind (r := Seen) ?_ fun l l' hs _ => alike_of_eq (fun _ => trivial) ?_
  · unfold manifestContent
    refine alike_bind (r := Eq) (alike_of_eq (fun _ => rfl) rfl) ?_
    rintro has _ rfl -
    refine alike_ite Iff.rfl (fun _ => alike_ret hs) (fun _ => ?_)
    refine alike_bind (r := Eq) (alike_of_eq (fun _ => rfl) rfl) ?_
    rintro m _ rfl -
    refine alike_bind (r := Eq) (alike_of_eq (fun _ => rfl) rfl) ?_
    rintro block _ rfl -
    exact alike_forM (fun e _ a b hab => t.manifestFile (E := E) (cwd := cwd) (entry := e) hab) hs
  · have : decide (l.length = 0) = decide (l'.length = 0) := by
      rw [decide_eq_decide, List.length_eq_zero_iff, List.length_eq_zero_iff, List.eq_nil_iff_forall_not_mem, List.eq_nil_iff_forall_not_mem]
      exact forall_congr' fun x => not_congr (hs.1 x)
    rw [this]

/-! ### The whole -/

theorem Twin.steps (hE : E.lib.Lawful) (hplain : cfg.lax = true → PlainAlgorithms E.lib s base) (t : Twin s base s' base') {errors : Nat} {tvalues : List Str} :
    Alike (fun _ _ => True) (validateSteps E cfg errors s base tvalues) (validateSteps { E with cwd := cwd } cfg errors s' base' tvalues) := by
  have hinv : Inside inventoryFilename [c!"inventory.json"] := inside_name (by decide)
  have hfirst : validateFirst E cfg s base tvalues = validateFirst { E with cwd := cwd } cfg s' base' tvalues := by
    unfold validateFirst
    rw [t.checkDeclaration (cwd := cwd), hinv.1 base, hinv.1 base', t.exists_ hinv.2]
    have hvi : ∀ spec, Validator.validateInventory E cfg spec s base inventoryFilename =
        Validator.validateInventory { E with cwd := cwd } cfg spec s' base' inventoryFilename := fun spec => t.validateInventory hinv
    simp only [hvi]
  have hset : ∀ spec jr es, validateFirst E cfg s base tvalues = .done (some (spec, jr)) es →
      StoredJson E.lib s (base ++ [c!"inventory.json"]) jr.1 ∧ Settled cfg.lax jr.1 jr.2 := by
    intro spec jr es h
    unfold validateFirst at h
    generalize Validator.checkDeclaration E cfg s base tvalues = m at h
    cases m with
    | raised e => cases h
    | abort es => cases h
    | done sp es1 =>
      dsimp only [W.bind] at h
      split at h
      · cases h
      · cases hv : Validator.validateInventory E cfg sp s base inventoryFilename with
        | raised e => rw [hv] at h; cases h
        | abort es => rw [hv] at h; cases h
        | done jr' es2 =>
          rw [hv] at h
          cases h
          exact settled_of hE hinv hv
  unfold validateSteps
  rw [← hfirst]
  cases h : validateFirst E cfg s base tvalues with
  | raised e => exact rfl
  | abort es => exact List.Perm.refl _
  | done r es =>
    cases r with
    | none => exact ⟨trivial, List.Perm.refl _⟩
    | some x =>
      obtain ⟨spec, jr⟩ := x
      have hs := hset spec jr es h
      refine alike_after ?_ (List.Perm.refl _)
      unfold Validator.validateRest
      cases ha : jr.2.digestAlgorithm with
      | str a => ?_
      | _ => exact rfl
      have hax := plain_of hplain (.inl rfl) hs ha
      refine alike_bind (r := fun x y => x = a ∧ y = a) ⟨⟨rfl, rfl⟩, List.Perm.refl _⟩ ?_
      rintro _ _ ⟨rfl, rfl⟩ -
      dsimp only
      refine alike_bind (r := fun _ _ => True) (alike_of_eq (fun _ => trivial) (t.inventoryDigest VDir.root (.inl rfl) hax)) fun _ _ _ _ => ?_
      refine alike_bind t.objectRoot fun _ _ _ _ => ?_
      refine alike_bind (r := Eq) (alike_of_eq (fun _ => rfl) (t.versionInventories hE hplain hax hs.2.versions)) ?_
      rintro st _ rfl -
      exact alike_ite Iff.rfl (fun _ => t.content hs.2.content hs.2.versions) (fun _ => alike_ret trivial)

theorem Twin.report (hE : E.lib.Lawful) (hplain : cfg.lax = true → PlainAlgorithms E.lib s base) (t : Twin s base s' base') {errors : Nat} :
    SameReport (validateAt E cfg errors s base) (validateAt { E with cwd := cwd } cfg errors s' base') := by
  unfold validateAt
  rw [← t.namastes]
  cases findNamastes s base 0 [] 10 with
  | error e => exact .exception
  | ok tvalues =>
    dsimp only
    have h := t.steps (cwd := cwd) hE hplain (errors := errors) (tvalues := tvalues)
    have hnum : ∀ {es es' : List Entry}, es.Perm es' → IV.numErrors es = IV.numErrors es' := fun h => (h.filter _).length_eq
    cases h1 : validateSteps E cfg errors s base tvalues <;> cases h2 : validateSteps { E with cwd := cwd } cfg errors s' base' tvalues <;>
      rw [h1, h2] at h <;> simp only [Alike] at h
    · dsimp only
      rw [hnum h.2]
      exact .verdict h.2
    · dsimp only
      rw [hnum h]
      exact .verdict h
    · subst h
      exact .exception

end Validator
end Ocfl
