import Verif.Spec.Bag
import Verif.Proofs.FS
import Verif.Props.ExampleObject

/-!
# A library for bags

Used to show that what is asked of `bagit` can be had, and to run the commands on examples. Bags made with it are not bags in the
sense of RFC 8493: `bag-info.txt` has another form and there is no manifest.
-/

namespace Ocfl

open Spec FS

namespace PlainBag

/-- The place of a file of the directory `dir` in the bag. -/
def moved (dir p : Path) : Path := if dir <+: p ∧ p ≠ dir then dir ++ c!"data" :: p.drop dir.length else p

theorem moved_below (dir : Path) {r : Path} (h : r ≠ []) : moved dir (dir ++ r) = dir ++ c!"data" :: r := by
  unfold moved
  rw [if_pos ⟨List.prefix_append _ _, by simpa using h⟩]
  simp

theorem moved_else {dir p : Path} (h : ¬ (dir <+: p ∧ p ≠ dir)) : moved dir p = p := by
  unfold moved
  rw [if_neg h]

theorem moved_inj {dir p q : Path} (h : moved dir p = moved dir q) : p = q := by
  by_cases hp : dir <+: p ∧ p ≠ dir <;> by_cases hq : dir <+: q ∧ q ≠ dir
  · obtain ⟨⟨r, rfl⟩, h1⟩ := hp
    obtain ⟨⟨r', rfl⟩, h2⟩ := hq
    rw [moved_below dir (by simpa using h1), moved_below dir (by simpa using h2)] at h
    simpa using h
  · obtain ⟨⟨r, rfl⟩, h1⟩ := hp
    rw [moved_below dir (by simpa using h1), moved_else hq] at h
    exact absurd ⟨⟨_, h⟩, by rw [← h]; simp⟩ hq
  · obtain ⟨⟨r, rfl⟩, h1⟩ := hq
    rw [moved_below dir (by simpa using h1), moved_else hp] at h
    exact absurd ⟨⟨_, h.symm⟩, by rw [h]; simp⟩ hp
  · rwa [moved_else hp, moved_else hq] at h

/-- The files moved. -/
def move (s : FS) (dir : Path) : FS := s.map (fun e => (moved dir e.1, e.2))

theorem get?_move (s : FS) (dir p : Path) : Dict.get? (move s dir) (moved dir p) = Dict.get? s p := by
  induction s with
  | nil => rfl
  | cons e s ih =>
    obtain ⟨k, n⟩ := e
    unfold move at ih ⊢
    rw [List.map_cons]
    simp only [Dict.get?]
    by_cases h : k = p
    · subst h; simp
    · have h' : moved dir k ≠ moved dir p := fun e => h (moved_inj e)
      simp only [h, h', if_false, ih]

theorem get?_move_none (s : FS) {dir q : Path} (h : ∀ p, moved dir p ≠ q) : Dict.get? (move s dir) q = none := by
  induction s with
  | nil => rfl
  | cons e s ih =>
    obtain ⟨k, n⟩ := e
    unfold move at ih ⊢
    rw [List.map_cons]
    simp only [Dict.get?]
    rw [if_neg (h k)]
    exact ih

/-- The tags in a file. -/
def tagsText (tags : Dict Str Str) : Bytes := utf8 (pyJson.dumps (.obj (tags.map (fun e => (e.1, .str e.2)))))

/-- The tags from the file. -/
def readTags (b : Bytes) : Option (Dict Str Str) :=
  match pyJson.loadb b with
  | some (.obj d) => some (d.map (fun e => (e.1, (e.2.str?).getD [])))
  | _ => none

theorem readTags_text {tags : Dict Str Str} (h : Dict.NK tags) : readTags (tagsText tags) = some tags := by
  unfold readTags tagsText
  rw [pyJson_lawful.loadb]
  · dsimp only
    rw [List.map_map]
    congr 1
    exact List.map_id'' (fun _ => rfl) tags
  · refine .obj ?_ ?_
    · show (List.map Prod.fst _).Nodup
      rw [List.map_map]
      exact h
    · intro p hp
      obtain ⟨e, _, rfl⟩ := List.mem_map.mp hp
      exact .str

def make (s : FS) (dir : Path) (tags : Dict Str Str) : FS × Py Unit :=
  if dir = [] ∨ look s dir ≠ some .dir then (s, .error .exception)
  else
    (Dict.set (Dict.set (move s dir) (dir ++ [c!"data"]) .dir) (dir ++ [c!"bag-info.txt"]) (.file (tagsText tags)), .ok ())

def read (s : FS) (dir : Path) : Py (Bool × Dict Str Str) :=
  match look s (dir ++ [c!"bag-info.txt"]) with
  | some (.file b) =>
    match readTags b with
    | some tags => .ok (true, tags)
    | none => .error .exception
  | _ => .error .exception

end PlainBag

def plainBagit : Bagit := { read := PlainBag.read, make := PlainBag.make }

open PlainBag in
theorem plainBagit_laws : BagitLaws plainBagit where
  local_ := by
    intro s s' dir h
    show PlainBag.read s' dir = PlainBag.read s dir
    unfold PlainBag.read
    rw [h _ (List.prefix_append _ _)]
  makes := by
    intro s s' dir tags hw hd hnk _ hm
    have hm : PlainBag.make s dir tags = (s', .ok ()) := hm
    unfold PlainBag.make at hm
    split_ifs at hm with hdir
    · cases hm
    push Not at hdir
    obtain ⟨hdir, _⟩ := hdir
    have hm := (Prod.mk.inj hm).1
    subst hm
    have hset : ∀ q, look (Dict.set (Dict.set (move s dir) (dir ++ [c!"data"]) .dir) (dir ++ [c!"bag-info.txt"]) (.file (tagsText tags))) q =
        if q = dir ++ [c!"bag-info.txt"] then some (.file (tagsText tags)) else if q = dir ++ [c!"data"] then some .dir else look (move s dir) q := by
      intro q
      rw [look_set (by simp), look_set (by simp)]
    generalize hs' : Dict.set (Dict.set (move s dir) (dir ++ [c!"data"]) .dir) (dir ++ [c!"bag-info.txt"]) (.file (tagsText tags)) = s' at hset ⊢
    have l1 : ∀ q, ¬ (dir <+: q ∧ q ≠ dir) → look s' q = look s q := by
      intro q hq
      rw [hset, if_neg (by rintro rfl; exact hq ⟨List.prefix_append _ _, by simp⟩), if_neg (by rintro rfl; exact hq ⟨List.prefix_append _ _, by simp⟩)]
      unfold look
      split_ifs with h0
      · rfl
      · have := get?_move s dir q
        rwa [moved_else hq] at this
    have l2 : look s' (dir ++ [c!"data"]) = some .dir := by
      rw [hset, if_neg (by simp), if_pos rfl]
    have l3 : ∀ r, r ≠ [] → look s' (dir ++ c!"data" :: r) = look s (dir ++ r) := by
      intro r hr
      rw [hset, if_neg (by simp), if_neg (by simpa using hr)]
      unfold look
      rw [if_neg (by simp), if_neg (by simp [hdir]), ← get?_move s dir (dir ++ r), moved_below dir hr]
    have l4 : look s' (dir ++ [c!"bag-info.txt"]) = some (.file (tagsText tags)) := by
      rw [hset, if_pos rfl]
    have l5 : ∀ w r, w ≠ c!"data" → dir ++ w :: r ≠ dir ++ [c!"bag-info.txt"] → look s' (dir ++ w :: r) = none := by
      intro w r hwd hbi
      rw [hset, if_neg hbi, if_neg (by simp [hwd])]
      unfold look
      rw [if_neg (by simp)]
      refine get?_move_none s fun p hp => ?_
      by_cases hb : dir <+: p ∧ p ≠ dir
      · obtain ⟨⟨r', rfl⟩, h1⟩ := hb
        rw [moved_below dir (by simpa using h1)] at hp
        have := List.append_cancel_left hp
        exact hwd (List.cons.inj this).1.symm
      · rw [moved_else hb] at hp
        subst hp
        exact hb ⟨List.prefix_append _ _, by simp⟩
    refine ⟨?_, ?_, ?_, tags, ?_, fun _ _ => rfl⟩
    · have hdirname : ∀ w ∈ dir, SafeName w := look_names hw hd
      have hmv : Dict.keys (move s dir) = (Dict.keys s).map (moved dir) := by
        unfold move Dict.keys
        rw [List.map_map, List.map_map]
        rfl
      have hkeys : ∀ p ∈ Dict.keys s', p ≠ [] := by
        intro p hp
        rw [← hs', Dict.mem_keys_set, Dict.mem_keys_set, hmv] at hp
        rcases hp with rfl | rfl | hp
        · simp
        · simp
        · obtain ⟨k, hk, rfl⟩ := List.mem_map.mp hp
          have hk0 : k ≠ [] := by rintro rfl; exact hw.noRoot hk
          by_cases hb : dir <+: k ∧ k ≠ dir
          · obtain ⟨⟨r, rfl⟩, h1⟩ := hb
            rw [moved_below dir (by simpa using h1)]
            simp
          · rwa [moved_else hb]
      have hcase : ∀ p ∈ Dict.keys s', (¬ (dir <+: p ∧ p ≠ dir) ∧ ∃ n, look s p = some n) ∨ p = dir ++ [c!"data"] ∨ p = dir ++ [c!"bag-info.txt"] ∨
          ∃ r, r ≠ [] ∧ p = dir ++ c!"data" :: r ∧ ∃ n, look s (dir ++ r) = some n := by
        intro p hp
        have hl := (mem_keys_look (hkeys p hp)).mp hp
        by_cases hb : dir <+: p ∧ p ≠ dir
        · obtain ⟨⟨q, rfl⟩, h1⟩ := hb
          cases q with
          | nil => simp at h1
          | cons w r =>
            by_cases hwd : w = c!"data"
            · subst hwd
              by_cases hr : r = []
              · subst hr; exact .inr (.inl rfl)
              · rw [l3 r hr] at hl
                exact .inr (.inr (.inr ⟨r, hr, rfl, Option.ne_none_iff_exists'.mp hl⟩))
            · by_cases hbi : dir ++ w :: r = dir ++ [c!"bag-info.txt"]
              · exact .inr (.inr (.inl hbi))
              · exact absurd (l5 w r hwd hbi) hl
        · rw [l1 p hb] at hl
          exact .inl ⟨hb, Option.ne_none_iff_exists'.mp hl⟩
      have hdir' : look s' dir = some .dir := by rw [l1 dir (by simp)]; exact hd
      refine ⟨?_, fun h => hkeys _ h rfl, ?_, ?_⟩
      · rw [← hs']
        refine Dict.NK_set (Dict.NK_set ?_ _ _) _ _
        show (Dict.keys (move s dir)).Nodup
        rw [hmv]
        exact List.Nodup.map (fun _ _ h => moved_inj h) hw.nk
      · intro p hp
        rcases hcase p hp with ⟨hb, n, hl⟩ | rfl | rfl | ⟨r, hr, rfl, n, hl⟩
        · rw [l1]
          · exact look_parent hw hl
          · rintro ⟨h1, h2⟩
            have h3 : dir <+: p := h1.trans (List.dropLast_prefix p)
            have : p = dir := by by_contra hc; exact hb ⟨h3, hc⟩
            subst this
            have := h1.length_le
            rw [List.length_dropLast] at this
            have : 0 < p.length := List.length_pos_iff.mpr hdir
            omega
        · rw [List.dropLast_concat]; exact hdir'
        · rw [List.dropLast_concat]; exact hdir'
        · have e : (dir ++ c!"data" :: r).dropLast = dir ++ c!"data" :: r.dropLast := by
            rw [List.dropLast_append_of_ne_nil (by simp)]
            cases r with
            | nil => exact absurd rfl hr
            | cons a r => rfl
          rw [e]
          by_cases hr' : r.dropLast = []
          · rw [hr']; exact l2
          · rw [l3 _ hr']
            have := look_parent hw hl
            rwa [List.dropLast_append_of_ne_nil hr] at this
      · intro p hp
        have hname : SafeName c!"data" ∧ SafeName c!"bag-info.txt" := by decide
        rcases hcase p hp with ⟨hb, n, hl⟩ | rfl | rfl | ⟨r, hr, rfl, n, hl⟩
        · exact look_names hw hl
        · intro w hwm
          rcases List.mem_append.mp hwm with h | h
          · exact hdirname w h
          · rw [List.mem_singleton.mp h]; exact hname.1
        · intro w hwm
          rcases List.mem_append.mp hwm with h | h
          · exact hdirname w h
          · rw [List.mem_singleton.mp h]; exact hname.2
        · intro w hwm
          have := look_names hw hl
          rcases List.mem_append.mp hwm with h | h
          · exact hdirname w h
          · rcases List.mem_cons.mp h with rfl | h
            · exact hname.1
            · exact this w (List.mem_append.mpr (.inr h))
    · intro q hq
      exact l1 q (fun h => hq h.1)
    · intro r b
      unfold FileBelow
      constructor
      · rintro ⟨hr, h⟩
        rw [List.append_assoc] at h
        exact ⟨hr, (l3 r hr) ▸ h⟩
      · rintro ⟨hr, h⟩
        rw [List.append_assoc]
        exact ⟨hr, (l3 r hr).trans h⟩
    · show PlainBag.read s' dir = _
      unfold PlainBag.read
      rw [l4]
      dsimp only
      rw [readTags_text hnk]

end Ocfl
