import Verif.Spec.Session
import Verif.Props.Bagger
import Verif.Props.LibraryValid

/-!
# The commands of `ocfl-object.py` make histories
-/

namespace Ocfl

open Spec FS Prog ObjectCli

theorem andPrint_ok {α : Type} {f : α → Py Output} {r : FS × Py α} {s' : FS} {out : Output} (h : andPrint f r = (s', .ok out)) :
    ∃ a, r = (s', .ok a) ∧ f a = .ok out := by
  obtain ⟨s, x⟩ := r
  cases x with
  | error e => cases h
  | ok a =>
    obtain ⟨h1, h2⟩ := Prod.mk.inj h
    subst h1
    exact ⟨a, rfl, h2⟩

theorem isSet_iff {x : Option Str} : Bagger.isSet x = false ↔ x = none ∨ x = some [] := by
  unfold Bagger.isSet
  cases x with
  | none => simp
  | some v => cases v <;> simp

/-- The block made from good metadata. -/
theorem asDict_good {now : Str} (hnow : Timestamp now) {m : VMeta} (hc : ∀ t, m.created = some t → t ≠ [] → Timestamp t)
    (hu : m.address ≠ none → m.name ≠ none) : GoodMeta (some (m.asDict now)) := by
  refine ⟨⟨_, rfl, ?_⟩, ?_, ?_⟩
  · unfold VMeta.asDict
    cases h : m.created with
    | none => exact ⟨_, rfl, hnow⟩
    | some t =>
      cases t with
      | nil => exact ⟨_, rfl, hnow⟩
      | cons x t => exact ⟨_, rfl, hc _ h (by simp)⟩
  · rintro b u hb he
    cases hb
    unfold VMeta.asDict at he
    dsimp only at he
    split_ifs at he with hn
    cases he
    cases hname : m.name with
    | some n => exact ⟨n, rfl⟩
    | none =>
      rw [hname] at hn
      refine absurd hname (hu ?_)
      intro ha
      rw [ha] at hn
      simp at hn
  · rintro b hb
    cases hb
    rfl

theorem metadata_good {now : Str} (hnow : Timestamp now) {a : About} (ha : GoodAbout a) : GoodMeta (some ((metadata a).asDict now)) :=
  asDict_good hnow ha.created ha.user

theorem fill_none {x : Option Str} {info : Dict Str Str} {k : Str} {f : Str → Str} :
    Bagger.fill x info k f = none ↔ x = none ∧ Dict.get? info k = none := by
  unfold Bagger.fill
  split_ifs with h
  · cases x with
    | none => cases h
    | some v => simp
  · rw [Bool.not_eq_true, isSet_iff] at h
    cases hg : Dict.get? info k with
    | none => simp
    | some v => simp

theorem bag_good {now : Str} (hnow : Timestamp now) {B : Bagit} {cwd : Path} {bag : Str} {s : FS} {info : Dict Str Str} {a : About}
    (hread : B.read s (absComps cwd bag) = .ok (true, info)) (ht : GoodTags a info) :
    ∃ m, Bagger.bagAsSource B cwd bag (metadata a) s = .ok (m, osPathJoin bag c!"data") ∧ m.id = Dict.get? info c!"External-Identifier" ∧
      GoodMeta (some (m.asDict now)) := by
  unfold Bagger.bagAsSource
  rw [hread]
  refine ⟨_, rfl, ?_, asDict_good hnow ?_ ?_⟩
  · show Bagger.fill none info _ _ = _
    unfold Bagger.fill
    rw [if_neg (by decide)]
    cases Dict.get? info c!"External-Identifier" <;> rfl
  · intro t he hne
    have he : Bagger.fill a.created info c!"Bagging-Date" (fun v => v ++ c!"T00:00:00Z") = some t := he
    unfold Bagger.fill at he
    split_ifs at he with hs
    · exact ht.created t he hne
    · rw [Bool.not_eq_true, isSet_iff] at hs
      split at he
      · exact ht.created t he hne
      · rename_i d hd
        cases he
        exact ht.date hs d hd
  · intro h
    have h : ¬ (a.address = none ∧ Dict.get? info c!"Contact-Email" = none) := fun h' => h (fill_none.mpr h')
    intro h'
    obtain ⟨h1, h2⟩ := fill_none.mp h'
    rcases ht.user (by by_contra hc; push Not at hc; exact h hc) with h3 | h3
    · exact h3 h1
    · exact h3 h2

theorem object_good {c : Common} (hc : GoodArgs c) {id : Option Str} (hid : id ≠ some []) : GoodSettings { object c with id := id } :=
  ⟨hid, hc.specVersion, hc.digest, (by decide : SafeName c!"content"), hc.fixity⟩

/-- What a successful `create` was. -/
theorem create_done {B : Bagit} {E : Env} {id : Str} {now : Str} {c : Common} {objdir : Str} {a : About} {srcdir srcbag : Option Str} {dir : Path}
    {bagId : Option Str} {s s' : FS} {out : Output} (args : GoodArgs c) (clock : Timestamp now) (source : Source B E s a srcdir srcbag dir bagId)
    (id_eq : c.id = some id ∨ (c.id = none ∧ bagId = some id)) (id_ne : id ≠ [])
    (done : doObjectOperation B E now c (.create (some objdir) a srcdir srcbag) s = (s', .ok out)) :
    ∃ block src inv, GoodSettings { object c with id := some id } ∧ GoodMeta (some block) ∧ absComps E.cwd src = dir ∧ out = .nothing ∧
      run (create E { object c with id := some id } src (some block) (some objdir)) s = (s', .ok inv) := by
  have hgood := object_good args (id := some id) (by simpa using id_ne)
  obtain ⟨inv, hr, ho⟩ := andPrint_ok (show andPrint _ _ = _ from done)
  cases ho
  cases source with
  | dir about =>
    rcases id_eq with hid | ⟨_, hid⟩
    · refine ⟨_, _, inv, hgood, metadata_good clock about, rfl, rfl, ?_⟩
      rw [show ({ object c with id := some id } : Obj) = object c by unfold object; rw [hid]]
      exact hr
    · cases hid
  | bag read tags =>
    obtain ⟨m, hm, hmid, hblock⟩ := bag_good clock read tags
    refine ⟨_, _, inv, hgood, hblock, absComps_data E.cwd _ (by decide : SafeName c!"data"), rfl, ?_⟩
    dsimp only at hr
    unfold Bagger.createFromBag at hr
    rw [hm] at hr
    dsimp only at hr
    rw [hmid] at hr
    cases hi : Dict.get? _ c!"External-Identifier" with
    | none =>
      rw [hi] at hr id_eq
      rcases id_eq with hid | ⟨_, hid⟩
      · rw [show ({ object c with id := some id } : Obj) = object c by unfold object; rw [hid]]
        exact hr
      · cases hid
    | some i =>
      rw [hi] at hr id_eq
      dsimp only at hr
      rcases id_eq with hid | ⟨hnone, hid⟩
      · have e : (object c).id = some id := hid
        rw [e] at hr
        dsimp only at hr
        split_ifs at hr with hne
        · cases hr
        · rw [show ({ object c with id := some id } : Obj) = object c by unfold object; rw [hid]]
          exact hr
      · have e : (object c).id = none := hnone
        rw [e] at hr
        cases hid
        exact hr

/-- What a successful `update` was. -/
theorem update_done {B : Bagit} {E : Env} {now : Str} {c : Common} {objdir : Str} {a : About} {srcdir srcbag : Option Str} {dir : Path}
    {bagId : Option Str} {s s' : FS} {out : Output} (clock : Timestamp now) (source : Source B E s a srcdir srcbag dir bagId)
    (done : doObjectOperation B E now c (.update objdir a srcdir srcbag) s = (s', .ok out)) :
    ∃ block src inv, GoodMeta (some block) ∧ absComps E.cwd src = dir ∧ out = .updated inv.id inv.head ∧
      run (addVersionWithContent E (object c) objdir (some src) (some block) false) s = (s', .ok (some inv)) := by
  obtain ⟨inv, hr, ho⟩ := andPrint_ok (show andPrint _ _ = _ from done)
  cases inv with
  | none => cases ho
  | some inv =>
    cases ho
    cases source with
    | dir about => exact ⟨_, _, inv, metadata_good clock about, rfl, rfl, hr⟩
    | bag read tags =>
      obtain ⟨m, hm, _, hblock⟩ := bag_good clock read tags
      refine ⟨_, _, inv, hblock, absComps_data E.cwd _ (by decide : SafeName c!"data"), rfl, ?_⟩
      dsimp only at hr
      unfold Bagger.updateFromBag at hr
      rw [hm] at hr
      exact hr

/-- What a successful `build` was. -/
theorem build_done {B : Bagit} {E : Env} {now : Str} {c : Common} {objdir srcdir : Str} {s s' : FS} {out : Output} (clock : Timestamp now)
    (done : doObjectOperation B E now c (.build (some objdir) (some srcdir) none) s = (s', .ok out)) :
    ∃ block inv, GoodMeta (some block) ∧ run (build E (object c) srcdir (fun _ => block) (some objdir)) s = (s', .ok inv) := by
  obtain ⟨inv, hr, _⟩ := andPrint_ok (show andPrint _ _ = _ from done)
  exact ⟨_, inv, asDict_good clock (by intro t h; cases h) (fun h => absurd rfl h), hr⟩

theorem session_dated {B : Bagit} {E : Env} {base : Path} {id spec : Str} {trees : List Tree} {s : FS} (h : Session B E base id spec trees s) :
    ∃ versions, versions.map Prod.fst = trees ∧ DatedHistory E base id versions s := by
  induction h with
  | create wf args clock source id_eq id_ne vacant nonempty names done =>
    obtain ⟨block, src, inv, hgood, hblock, hsrc, _, hr⟩ := create_done args clock source id_eq id_ne done
    subst hsrc
    exact ⟨_, rfl, .create wf hgood hblock rfl rfl vacant nonempty names hr⟩
  | build wf args clock id_eq id_ne sources vacant apart nonempty names done =>
    obtain ⟨block, inv, hblock, hr⟩ := build_done clock done
    refine ⟨_, List.map_fst_zip (by simp [versionTrees]), .build wf (o := object _) (metadata := fun _ => block) ?_ sources (fun _ _ => hblock) id_eq rfl
      vacant apart nonempty names hr⟩
    exact object_good args (id := (object _).id) (by show Common.id _ ≠ _; rw [id_eq]; simpa using id_ne)
  | elsewhere _ wf same ih =>
    obtain ⟨vs, h1, h2⟩ := ih
    exact ⟨vs, h1, .elsewhere h2 wf same⟩
  | copied _ wf same ih =>
    obtain ⟨vs, h1, h2⟩ := ih
    exact ⟨vs, h1, .copied h2 wf same⟩
  | update _ digest clock source names done ih =>
    obtain ⟨vs, h1, h2⟩ := ih
    obtain ⟨block, src, inv, hblock, hsrc, _, hr⟩ := update_done clock source done
    subst hsrc
    exact ⟨vs ++ [(_, block)], by rw [List.map_append, h1]; rfl, .update h2 (o := object _) digest hblock rfl names hr⟩

theorem session_history {B : Bagit} {E : Env} {base : Path} {id spec : Str} {trees : List Tree} {s : FS} (h : Session B E base id spec trees s) :
    History E base trees s := by
  obtain ⟨vs, rfl, h'⟩ := session_dated h
  exact h'.history

/-- The declaration stays as it was made. -/
theorem session_sound {B : Bagit} {E : Env} (hE : Libraries E) (hcwd : ∀ w ∈ E.cwd, SafeName w) {base : Path} {id spec : Str} {trees : List Tree}
    {s : FS} (h : Session B E base id spec trees s) (hno : NoCollision E.raw (InTrees trees)) (hlen : trees.length ≤ 99999) :
    ∃ recs rl, Sound E s base spec trees recs ∧ recs.getLast? = some rl ∧ rl.inv.id = some id := by
  suffices hd : look s (base ++ [c!"0=ocfl_object_" ++ spec]) ≠ none by
    obtain ⟨vs, rfl, hdated⟩ := session_dated h
    obtain ⟨dv, recs, rl, hs, hlast, hid, _⟩ := dated_sound hE.json hE.hash hE.word hcwd hdated hno (by simpa using hlen)
    rw [hs.declared.mp hd]
    exact ⟨recs, rl, hs, hlast, hid⟩
  induction h with
  | create wf args clock source id_eq id_ne vacant nonempty names done =>
    obtain ⟨block, src, inv, hgood, hblock, hsrc, _, hr⟩ := create_done args clock source id_eq id_ne done
    subst hsrc
    obtain ⟨r, _, _, hs⟩ := sound_create hE.hash hE.word hcwd hgood hblock wf vacant nonempty names hr
    exact hs.declared.mpr rfl
  | build wf args clock id_eq id_ne sources vacant apart nonempty names done =>
    obtain ⟨block, inv, hblock, hr⟩ := build_done clock done
    obtain ⟨recs, r, _, _, hs, _⟩ := sound_build hE.hash hE.word hcwd (o := object _) (metadata := fun _ => block)
      (object_good args (id := (object _).id) (by show Common.id _ ≠ _; rw [id_eq]; simpa using id_ne)) wf sources (fun _ _ => hblock) vacant apart
      nonempty names hr
    exact hs.declared.mpr rfl
  | elsewhere _ wf same ih => rw [same _ (List.prefix_append _ _)]; exact ih hno hlen
  | copied before wf same ih =>
    obtain ⟨dv, recs, hs⟩ := history_sound hE.json hE.hash hE.word hcwd (session_history before) hno hlen
    have hv := hs.declared.mp (ih hno hlen)
    have hf := hs.declaration
    rw [← hv] at hf
    intro hn
    have := hn.symm.trans ((same.files _ _).mpr hf)
    cases this
  | update before digest clock source names done ih =>
    rw [List.length_append, List.length_singleton] at hlen
    have hno' := NoCollision.mono hno (fun b hb => InTrees.append hb)
    have hd := ih hno' (by omega)
    obtain ⟨dv, recs, hs⟩ := history_sound hE.json hE.hash hE.word hcwd (session_history before) hno' (by omega)
    have hv := hs.declared.mp hd
    obtain ⟨block, src, inv, hblock, hsrc, _, hr⟩ := update_done clock source done
    subst hsrc
    obtain ⟨r, _, _, hs'⟩ := hs.update hE.json hE.hash (o := object _) digest hblock hno' hlen rfl names hr
    exact hs'.declared.mpr hv

end Ocfl
