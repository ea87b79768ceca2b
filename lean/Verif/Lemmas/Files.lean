import Verif.Model.Files

/-! # Lemmas: paths and the operations on a disk -/

namespace QMix.Files

open QMix Np Exp Spec

/-! ## Paths -/

theorem cut_ne (p : List Char) : cut p ≠ [] := by
  induction p with
  | nil => simp [cut]
  | cons c cs ih =>
    unfold cut
    split_ifs
    · simp
    · split <;> simp

theorem cut_append (a b : List Char) : cut (a ++ '/' :: b) = cut a ++ cut b := by
  induction a with
  | nil => simp [cut]
  | cons c cs ih =>
    by_cases hc : c = '/'
    · subst hc
      simp [cut, ih]
    · have h0 := cut_ne cs
      rw [List.cons_append, cut, if_neg hc, ih, cut, if_neg hc]
      cases hcs : cut cs with
      | nil => exact absurd hcs h0
      | cons w ws => simp

theorem parts_nil : parts [] = [] := by simp [parts, cut]

theorem parts_slash (a b : List Char) : parts (a ++ '/' :: b) = parts a ++ parts b := by
  unfold parts
  rw [cut_append, List.filter_append]

theorem parts_append {a b : List Char} (h : a.getLast? = some '/') : parts (a ++ b) = parts a ++ parts b := by
  obtain ⟨a', rfl⟩ : ∃ a', a = a' ++ ['/'] := List.getLast?_eq_some_iff.1 h
  rw [List.append_assoc, List.singleton_append, parts_slash, parts_slash, parts_nil, List.append_nil]

theorem cut_single {n : List Char} (h : '/' ∉ n) : cut n = [n] := by
  induction n with
  | nil => rfl
  | cons c cs ih =>
    simp only [List.mem_cons, not_or] at h
    rw [cut, if_neg (Ne.symm h.1), ih h.2]

theorem parts_single {n : List Char} (h : '/' ∉ n) (h0 : n ≠ []) (h1 : n ≠ ['.']) : parts n = [n] := by
  unfold parts
  rw [cut_single h]
  simp [h0, h1]

/-- The place of a folder or file in a folder. -/
theorem place_join (cwd : List Name) (a : List Char) {b : List Char} (hb : b.head? ≠ some '/') :
    place cwd (join a b) = place cwd a ++ parts b := by
  unfold join
  rw [if_neg hb]
  cases a with
  | nil => simp [place, hb, parts_nil]
  | cons c cs =>
    by_cases hl : (c :: cs).getLast? = some '/'
    · rw [if_pos (Or.inr hl)]
      unfold place
      rw [parts_append hl, List.cons_append, List.head?_cons, List.head?_cons]
      split_ifs <;> simp
    · rw [if_neg (by simp [hl])]
      unfold place
      rw [parts_slash, List.cons_append, List.head?_cons, List.head?_cons]
      split_ifs <;> simp

theorem place_join_abs (cwd : List Name) (a : List Char) {b : List Char} (hb : b.head? = some '/') :
    place cwd (join a b) = parts b := by
  unfold join place
  rw [if_pos hb, if_pos hb]

theorem join_ne {a b : List Char} (h : b ≠ []) : join a b ≠ [] := by
  unfold join
  split_ifs <;> simp [h]

theorem join_ne' {a b : List Char} (h : a ≠ []) : join a b ≠ [] := by
  unfold join
  split_ifs with h1
  · rintro rfl
    simp at h1
  · simp [h]
  · simp

theorem join_last {a b : List Char} (h : b ≠ []) : (join a b).getLast? = b.getLast? := by
  unfold join
  split_ifs
  · rfl
  · rw [List.getLast?_append]
    cases hb : b.getLast? with
    | none => simp [h] at hb
    | some c => rfl
  · rw [List.getLast?_append, List.getLast?_cons]
    cases hb : b.getLast? with
    | none => simp [h] at hb
    | some c => rfl

/-- The place of a named file in a folder. -/
theorem place_file (cwd : List Name) (a : List Char) {n : List Char} (h : '/' ∉ n) (h0 : n ≠ []) (h1 : n ≠ ['.']) :
    place cwd (join a n) = place cwd a ++ [n] := by
  rw [place_join, parts_single h h0 h1]
  intro hh
  exact h (List.mem_of_mem_head? hh)

/-! ## Disks -/

/-- The disk with one more directory, and those that lead to it. -/
def withDir (s : Disk Content) (q : List Name) : Disk Content := { s with dir := fun l => s.dir l ∨ l <+: q }

open Classical in
/-- The disk with a file. -/
noncomputable def withFile (s : Disk Content) (q : List Name) (c : Content) : Disk Content :=
  { s with file := fun l => if l = q then some c else s.file l }

theorem dir_prefix {s : Disk Content} (h : s.Ok) {l q : List Name} (hq : s.dir q) (hl : l <+: q) : s.dir l := by
  obtain ⟨t, rfl⟩ := hl
  induction t using List.reverseRecOn with
  | nil => simpa using hq
  | append_singleton t n ih => exact ih (h.up _ n (by rwa [List.append_assoc]))

theorem free_withDir {s : Disk Content} {q l : List Name} : (withDir s q).Free l ↔ s.Free l := Iff.rfl

theorem ok_withDir {s : Disk Content} (h : s.Ok) {q : List Name} (hq : s.Free q) : (withDir s q).Ok where
  root := Or.inl h.root
  up := by
    rintro l n (hd | hd)
    · exact Or.inl (h.up l n hd)
    · exact Or.inr ((List.prefix_append l [n]).trans hd)
  fileUp := fun l n hf => Or.inl (h.fileUp l n hf)
  apart := by
    rintro l (hd | hd)
    · exact h.apart l hd
    · exact hq l hd

theorem ok_withFile {s : Disk Content} (h : s.Ok) {q : List Name} {c : Content} (hd : s.dir q.dropLast) (hq : ¬ s.dir q) :
    (withFile s q c).Ok where
  root := h.root
  up := h.up
  fileUp := by
    intro l n hf
    simp only [withFile] at hf ⊢
    split_ifs at hf with hl
    · rw [← hl, List.dropLast_concat] at hd
      exact hd
    · exact h.fileUp l n hf
  apart := by
    intro l hl
    have : l ≠ q := fun hh => hq (hh ▸ hl)
    simp only [withFile, if_neg this]
    exact h.apart l hl

theorem withDir_same {s : Disk Content} (h : s.Ok) {q : List Name} (hq : s.dir q) : withDir s q = s := by
  unfold withDir
  congr 1
  funext l
  exact propext ⟨fun hl => hl.elim id fun hl => dir_prefix h hq hl, Or.inl⟩

/-! ## Operations -/

theorem bind_run {α β : Type} (m : Op α) (f : α → Op β) (s : Disk Content) :
    (m >>= f) s = match m s with
      | (.ok a, s') => f a s'
      | (.error e, s') => (.error e, s') := rfl

theorem bind_run_ok {α β : Type} {m : Op α} {s s' : Disk Content} {a : α} (h : m s = (.ok a, s')) (f : α → Op β) :
    (m >>= f) s = f a s' := by rw [bind_run, h]

theorem bind_run_err {α β : Type} {m : Op α} {s s' : Disk Content} {e : Err} (h : m s = (.error e, s')) (f : α → Op β) :
    (m >>= f) s = (.error e, s') := by rw [bind_run, h]

theorem pure_run {α : Type} (a : α) (s : Disk Content) : (pure a : Op α) s = (.ok a, s) := rfl

theorem lift_ok {α : Type} {x : Py α} {a : α} (h : x = .ok a) (s : Disk Content) : lift x s = (.ok a, s) := by
  rw [h]; rfl

theorem lift_err {α : Type} {x : Py α} {e : PyErr} (h : x = .error e) (s : Disk Content) :
    lift x s = (.error (.py e), s) := by rw [h]; rfl

open Classical in
/-- A folder is made if it is not there. -/
theorem ensure_run {s : Disk Content} (h : s.Ok) (cwd : List Name) {p : List Char} (hp : p ≠ [])
    (hf : s.Free (place cwd p)) : ensure cwd p s = (.ok (), withDir s (place cwd p)) := by
  have hf0 : s.file (place cwd p) = none := hf _ (List.prefix_refl _)
  unfold ensure
  rw [bind_run_ok (a := decide (s.dir (place cwd p))) (s' := s)
    (by unfold pathExists; simp [hp, hf0])]
  by_cases hd : s.dir (place cwd p)
  · simp only [hd, decide_true, if_true, pure_run, withDir_same h hd]
  · simp only [hd, decide_false, Bool.false_eq_true, if_false]
    unfold makedirs
    rw [if_neg hp, if_neg (by simp [hd, hf0]), if_neg (by simp [hf])]
    rfl

theorem ensure_empty (cwd : List Name) (s : Disk Content) : ensure cwd [] s = (.error .noEntry, s) := by
  unfold ensure
  rw [bind_run_ok (a := false) (s' := s) (by unfold pathExists; simp)]
  simp [makedirs]

open Classical in
/-- A folder that cannot be made because a file is in the way. -/
theorem ensure_blocked {s : Disk Content} (h : s.Ok) (cwd : List Name) {p : List Char}
    (hf : ¬ s.Free (place cwd p)) : (ensure cwd p s = (.ok (), s) ∧ s.file (place cwd p) ≠ none) ∨
      ∃ e, ensure cwd p s = (.error e, s) := by
  have hd : ¬ s.dir (place cwd p) := fun hd => hf fun l hl => h.apart l (dir_prefix h hd hl)
  by_cases he : p ≠ [] ∧ (s.dir (place cwd p) ∨ (s.file (place cwd p) ≠ none ∧ p.getLast? ≠ some '/'))
  · left
    unfold ensure
    rw [bind_run_ok (a := true) (s' := s) (by unfold pathExists; simp only [decide_eq_true he])]
    exact ⟨rfl, (he.2.resolve_left hd).1⟩
  · right
    unfold ensure
    rw [bind_run_ok (a := false) (s' := s) (by unfold pathExists; simp only [decide_eq_false he])]
    simp only [Bool.false_eq_true, if_false]
    unfold makedirs
    split_ifs <;> exact ⟨_, rfl⟩

/-- A file is written into a folder that is there. -/
theorem save_run {s : Disk Content} (h : s.Ok) (cwd : List Name) {a n : List Char} (hs : '/' ∉ n) (h0 : n ≠ [])
    (h1 : n ≠ ['.']) (c : Content) (hd : s.dir (place cwd a)) (hf : ¬ s.dir (place cwd a ++ [n])) :
    save cwd (join a n) c s = (.ok (), withFile s (place cwd a ++ [n]) c) := by
  unfold save
  rw [if_neg (join_ne h0), place_file cwd a hs h0 h1, List.dropLast_concat]
  rw [if_neg, if_neg (not_not.2 (show s.Free _ from fun l hl => h.apart l (dir_prefix h hd hl))), if_neg (by simpa using hd)]
  · rfl
  · rw [join_last h0]
    rintro (hl | hl)
    · exact hs (List.mem_of_getLast? hl)
    · exact hf hl

/-! ## What may change -/

/-- Whatever the operation does, it only adds directories in `D` and only writes files in `T`. -/
def Within {α : Type} (D : List Name → Prop) (T : List Name → Content → Prop) (m : Op α) : Prop :=
  ∀ s : Disk Content, s.Ok → (m s).2.Ok ∧ (∀ l, s.dir l → (m s).2.dir l) ∧ (∀ l, (m s).2.dir l → s.dir l ∨ D l) ∧
    ∀ l, (m s).2.file l = s.file l ∨ ∃ c, T l c ∧ (m s).2.file l = some c

variable {D : List Name → Prop} {T : List Name → Content → Prop}

theorem within_same {α : Type} {m : Op α} (h : ∀ s, (m s).2 = s) : Within D T m := fun s hs => by
  rw [h s]
  exact ⟨hs, fun _ => id, fun _ => Or.inl, fun _ => Or.inl rfl⟩

theorem within_pure {α : Type} (a : α) : Within D T (pure a) := within_same fun _ => rfl

theorem within_throw {α : Type} (e : Err) : Within D T (throw e : Op α) := within_same fun _ => rfl

theorem within_lift {α : Type} (x : Py α) : Within D T (lift x) := within_same fun s => by cases x <;> rfl

theorem within_bind {α β : Type} {m : Op α} {f : α → Op β} (hm : Within D T m) (hf : ∀ a, Within D T (f a)) :
    Within D T (m >>= f) := by
  intro s hs
  rw [bind_run]
  have h := hm s hs
  rcases hms : m s with ⟨r, s'⟩
  rw [hms] at h
  obtain ⟨h1, h2, h3, h4⟩ := h
  cases r with
  | error e => exact ⟨h1, h2, h3, h4⟩
  | ok a =>
    obtain ⟨g1, g2, g3, g4⟩ := hf a s' h1
    refine ⟨g1, fun l hl => g2 l (h2 l hl), fun l hl => (g3 l hl).elim (h3 l) Or.inr, fun l => ?_⟩
    rcases g4 l with h | h
    · rw [h]; exact h4 l
    · exact Or.inr h

/-- As `within_bind`, for a pure computation whose result is known to be what it returned. -/
theorem within_bind_lift {α β : Type} {x : Py α} {f : α → Op β} (hf : ∀ a, x = .ok a → Within D T (f a)) :
    Within D T (lift x >>= f) := by
  cases x with
  | error e => exact within_same fun s => rfl
  | ok a => exact hf a rfl

theorem within_ensure (cwd : List Name) {p : List Char} (hD : ∀ l, l <+: place cwd p → D l) :
    Within D T (ensure cwd p) := by
  intro s hs
  by_cases hp : p = []
  · subst hp
    rw [ensure_empty]
    exact ⟨hs, fun _ => id, fun _ => Or.inl, fun _ => Or.inl rfl⟩
  · by_cases hf : s.Free (place cwd p)
    · rw [ensure_run hs cwd hp hf]
      exact ⟨ok_withDir hs hf, fun _ => Or.inl, fun l hl => hl.imp id (hD l), fun _ => Or.inl rfl⟩
    · have : (ensure cwd p s).2 = s := by
        rcases ensure_blocked hs cwd hf with ⟨h, -⟩ | ⟨e, h⟩ <;> rw [h]
      rw [this]
      exact ⟨hs, fun _ => id, fun _ => Or.inl, fun _ => Or.inl rfl⟩

theorem within_save (cwd : List Name) {p : List Char} {c : Content} (hT : T (place cwd p) c) :
    Within D T (save cwd p c) := by
  intro s hs
  unfold save
  by_cases h1 : p = []
  · rw [if_pos h1]
    exact ⟨hs, fun _ => id, fun _ => Or.inl, fun _ => Or.inl rfl⟩
  by_cases h2 : p.getLast? = some '/' ∨ s.dir (place cwd p)
  · rw [if_neg h1, if_pos h2]
    exact ⟨hs, fun _ => id, fun _ => Or.inl, fun _ => Or.inl rfl⟩
  by_cases h3 : ¬ s.Free (place cwd p).dropLast
  · rw [if_neg h1, if_neg h2, if_pos h3]
    exact ⟨hs, fun _ => id, fun _ => Or.inl, fun _ => Or.inl rfl⟩
  by_cases h4 : ¬ s.dir (place cwd p).dropLast
  · rw [if_neg h1, if_neg h2, if_neg h3, if_pos h4]
    exact ⟨hs, fun _ => id, fun _ => Or.inl, fun _ => Or.inl rfl⟩
  rw [if_neg h1, if_neg h2, if_neg h3, if_neg h4]
  refine ⟨ok_withFile (c := c) hs (not_not.1 h4) fun h => h2 (Or.inr h), fun _ => id, fun _ => Or.inl, fun l => ?_⟩
  by_cases hl : l = place cwd p
  · subst hl
    exact Or.inr ⟨c, hT, if_pos rfl⟩
  · exact Or.inl (if_neg hl)

end QMix.Files
