import Verif.Model.CleanData
import Verif.Lemmas.Py
import Verif.Lemmas.NumPy

/-!
# Lemmas about cleaning data

The data is a list of records with a key; the arrays of the code are maps of it.
-/

namespace QMix.Clean

open Np Fl

variable {ρ α : Type}

theorem select_map (l : List ρ) (f : ρ → α) (b : ρ → Bool) :
    select (l.map f) (l.map b) = .ok ((l.filter b).map f) := by
  unfold select
  rw [if_pos (by simp)]
  congr 1
  induction l with
  | nil => rfl
  | cons a l ih =>
    simp only [List.map_cons, List.zip_cons_cons, List.filter_cons]
    by_cases h : b a = true
    · simp only [h, ite_true, List.map_cons, ih]
    · simp only [h, Bool.false_eq_true, ite_false, ih]

theorem mapM_okMap {β γ : Type} {l : List β} {f : β → Py γ} {g : β → γ} (h : ∀ a ∈ l, f a = .ok (g a)) :
    l.mapM f = .ok (l.map g) := by
  induction l with
  | nil => rfl
  | cons a l ih =>
    rw [List.mapM_cons, h a (by simp), py_bind, ih (fun b hb => h b (by simp [hb])), py_bind]
    rfl

/-- Reordering. -/
theorem takeIdx_map (l : List ρ) (d : ρ) (f : ρ → α) {idx : List ℕ}
    (h : ∀ i ∈ idx, i < l.length) :
    takeIdx (l.map f) idx = .ok ((idx.map fun i => l.getD i d).map f) := by
  unfold takeIdx
  rw [mapM_okMap (g := fun i => f (l.getD i d))]
  · rw [List.map_map]; rfl
  · intro i hi
    have := h i hi
    apply pyGet_ok_of_getElem? (i := i)
    · rw [pyIndex_nonneg (by omega) (by simpa using this)]; simp
    · simp [this]

theorem reorder_perm (l : List ρ) (d : ρ) {idx : List ℕ} (h : idx.Perm (List.range l.length)) :
    (idx.map fun i => l.getD i d).Perm l := by
  refine (h.map _).trans (List.Perm.of_eq ?_)
  apply List.ext_getElem (by simp)
  intro i h1 h2
  simp [h2]

theorem slice_tail (l : List α) : slice l (some 1) none = l.tail := by
  unfold slice bound
  cases l <;> simp

theorem slice_init (l : List α) : slice l none (some (-1)) = l.dropLast := by
  unfold slice bound
  simp only [Option.elim_none, Option.elim_some, List.drop_zero]
  rw [if_pos (by norm_num), List.dropLast_eq_take]
  congr 1
  omega

theorem zip_diff {β : Type} (f : Flt → Flt → β) (l : List ρ) (k : ρ → Flt) :
    zip f (slice (l.map k) (some 1) none) (slice (l.map k) none (some (-1)))
      = .ok (List.zipWith (fun a b => f (k a) (k b)) l.tail l.dropLast) := by
  rw [slice_tail, slice_init]
  unfold zip
  rw [if_pos (by simp)]
  rw [← List.map_tail, ← List.map_dropLast, List.zipWith_map]

theorem doubleMask_nil : doubleMask [] = .ok [] := by
  unfold doubleMask
  rw [show ([] : List Flt) = ([] : List Flt).map id from rfl, zip_diff, py_bind]
  rfl

theorem doubleMask_cons (a : ρ) (l : List ρ) (k : ρ → Flt) :
    doubleMask ((a :: l).map k)
      = .ok (true :: List.zipWith (fun a b => fne (k a) (k b)) l (a :: l).dropLast) := by
  unfold doubleMask
  rw [zip_diff, py_bind]
  unfold setSlice
  simp [bound, List.replicate_succ]

/-- What removing doubles keeps after a record `a`. -/
noncomputable def keepFrom (k : ρ → Flt) (a : ρ) : List ρ → List ρ
  | [] => []
  | b :: l => if fne (k b) (k a) then b :: keepFrom k b l else keepFrom k b l

/-- What removing doubles keeps. -/
noncomputable def keep (k : ρ → Flt) : List ρ → List ρ
  | [] => []
  | a :: l => a :: keepFrom k a l

theorem select_cons_true (a : α) (l : List α) (m : List Bool) (r : List α) (h : select l m = .ok r) :
    select (a :: l) (true :: m) = .ok (a :: r) := by
  unfold select at h ⊢
  split_ifs at h with h1
  · have h2 := Except.ok.inj h
    rw [if_pos (by simpa using h1)]
    simp [h2]

theorem select_cons_false (a : α) (l : List α) (m : List Bool) (r : List α)
    (h : select l m = .ok r) : select (a :: l) (false :: m) = .ok r := by
  unfold select at h ⊢
  split_ifs at h with h1
  · have h2 := Except.ok.inj h
    rw [if_pos (by simpa using h1)]
    simp [h2]

theorem select_keepFrom (k : ρ → Flt) (f : ρ → α) (a : ρ) (l : List ρ) :
    select (l.map f) (List.zipWith (fun a b => fne (k a) (k b)) l (a :: l).dropLast)
      = .ok ((keepFrom k a l).map f) := by
  induction l generalizing a with
  | nil => rfl
  | cons b l ih =>
    rw [List.dropLast_cons_cons, List.zipWith_cons_cons, List.map_cons]
    unfold keepFrom
    cases hb : fne (k b) (k a) with
    | true => simpa using select_cons_true _ _ _ _ (ih b)
    | false => simpa using select_cons_false _ _ _ _ (ih b)

/-- Removing doubles. -/
theorem select_doubleMask (k : ρ → Flt) (l : List ρ) :
    ∃ m, doubleMask (l.map k) = .ok m ∧
      ∀ {β : Type} (f : ρ → β), select (l.map f) m = .ok ((keep k l).map f) := by
  cases l with
  | nil => exact ⟨[], doubleMask_nil, fun f => rfl⟩
  | cons a l =>
    refine ⟨_, doubleMask_cons a l k, fun f => ?_⟩
    exact select_cons_true _ _ _ _ (select_keepFrom k f a l)

/-- Both are numbers and the first is smaller. -/
def Below (a b : Flt) : Prop := ∃ x y : EReal, a = some x ∧ b = some y ∧ x < y

theorem fne_iff {x y : EReal} : fne (some x) (some y) = true ↔ x ≠ y := by
  unfold fne; simp

theorem keepFrom_sublist (k : ρ → Flt) (a : ρ) (l : List ρ) : (keepFrom k a l).Sublist l := by
  induction l generalizing a with
  | nil => exact List.Sublist.slnil
  | cons b l ih =>
    unfold keepFrom
    split_ifs
    · exact (ih b).cons_cons b
    · exact (ih b).cons b

theorem keep_sublist (k : ρ → Flt) (l : List ρ) : (keep k l).Sublist l := by
  cases l with
  | nil => exact List.Sublist.slnil
  | cons a l => exact (keepFrom_sublist k a l).cons_cons a

theorem Flt.le_trans {a b c : Flt} (h : Flt.le a b) (h' : Flt.le b c) : Flt.le a c := by
  cases a <;> cases b <;> cases c <;> simp [Flt.le] at *
  exact h.trans h'

/-- Sorted keys: what is kept has increasing keys, above the last one. -/
theorem keepFrom_below (k : ρ → Flt) (a : ρ) (l : List ρ)
    (hs : ((a :: l).map k).Pairwise Flt.le) (hn : ∀ r ∈ a :: l, k r ≠ none) :
    ((a :: keepFrom k a l).map k).Pairwise Below := by
  induction l generalizing a with
  | nil => simp [keepFrom]
  | cons b l ih =>
    have hs' : ((b :: l).map k).Pairwise Flt.le := by
      rw [List.map_cons, List.pairwise_cons] at hs; exact hs.2
    have hab : Flt.le (k a) (k b) := by
      rw [List.map_cons, List.pairwise_cons] at hs; exact hs.1 _ (by simp)
    have hn' : ∀ r ∈ b :: l, k r ≠ none := fun r hr => hn r (by simp [List.mem_cons.1 hr])
    have ih' := ih b hs' hn'
    obtain ⟨x, hx⟩ := Option.ne_none_iff_exists'.1 (hn a (by simp))
    obtain ⟨y, hy⟩ := Option.ne_none_iff_exists'.1 (hn b (by simp))
    rw [hx, hy] at hab
    change x ≤ y at hab
    rw [List.map_cons, List.pairwise_cons] at ih' ⊢
    unfold keepFrom
    by_cases hne : x = y
    · have hf : fne (k b) (k a) = false := by
        rw [hx, hy, hne]
        exact Bool.eq_false_iff.2 (fun h => fne_iff.1 h rfl)
      rw [hf]
      simp only [Bool.false_eq_true, ite_false]
      refine ⟨fun q hq => ?_, ih'.2⟩
      have := ih'.1 q hq
      rwa [hx, hne, ← hy]
    · have hf : fne (k b) (k a) = true := by
        rw [hx, hy]; exact fne_iff.2 (Ne.symm hne)
      rw [hf]
      simp only [ite_true]
      have hlt : x < y := lt_of_le_of_ne hab hne
      refine ⟨fun q hq => ?_, ?_⟩
      · rw [List.map_cons, List.mem_cons] at hq
        rcases hq with rfl | hq
        · exact ⟨x, y, hx, hy, hlt⟩
        · obtain ⟨y', z, hy', hz, h⟩ := ih'.1 q hq
          rw [hy] at hy'
          obtain rfl := Option.some.inj hy'
          exact ⟨x, z, hx, hz, hlt.trans h⟩
      · rw [List.map_cons, List.pairwise_cons]; exact ih'

theorem keepFrom_mem (k : ρ → Flt) (a : ρ) (l : List ρ) (hn : ∀ r ∈ a :: l, k r ≠ none)
    {r : ρ} (hr : r ∈ a :: l) : k r ∈ (a :: keepFrom k a l).map k := by
  induction l generalizing a with
  | nil => simp at hr; simp [hr]
  | cons b l ih =>
    rcases List.mem_cons.1 hr with rfl | hr
    · simp
    · have := ih b (fun r hr => hn r (by simp [List.mem_cons.1 hr])) hr
      unfold keepFrom
      split_ifs with h
      · rw [List.map_cons]; exact List.mem_cons_of_mem _ this
      · obtain ⟨x, hx⟩ := Option.ne_none_iff_exists'.1 (hn a (by simp))
        obtain ⟨y, hy⟩ := Option.ne_none_iff_exists'.1 (hn b (by simp))
        rw [hx, hy, fne_iff, not_not] at h
        rw [List.map_cons] at this ⊢
        rwa [hx, ← h, ← hy]

theorem keep_below (k : ρ → Flt) (l : List ρ) (hs : (l.map k).Pairwise Flt.le)
    (hn : ∀ r ∈ l, k r ≠ none) : ((keep k l).map k).Pairwise Below := by
  cases l with
  | nil => simp [keep]
  | cons a l => exact keepFrom_below k a l hs hn

theorem keep_mem (k : ρ → Flt) (l : List ρ) (hn : ∀ r ∈ l, k r ≠ none) {r : ρ} (hr : r ∈ l) :
    k r ∈ (keep k l).map k := by
  cases l with
  | nil => simp at hr
  | cons a l => exact keepFrom_mem k a l hn hr

theorem keep_eq (k : ρ → Flt) (l : List ρ) (h : (l.map k).Pairwise Below) : keep k l = l := by
  cases l with
  | nil => rfl
  | cons a l =>
    rw [show keep k (a :: l) = a :: keepFrom k a l from rfl]
    congr 1
    induction l generalizing a with
    | nil => rfl
    | cons b l ih =>
      rw [List.map_cons, List.pairwise_cons] at h
      obtain ⟨x, y, hx, hy, hxy⟩ := h.1 (k b) (by simp)
      rw [show keepFrom k a (b :: l) = if fne (k b) (k a) then b :: keepFrom k b l else keepFrom k b l
        from rfl, hx, hy, if_pos (fne_iff.2 hxy.ne'), ih b h.2]

theorem Below.trans {a b c : Flt} (h : Below a b) (h' : Below b c) : Below a c := by
  obtain ⟨x, y, hx, hy, h⟩ := h
  obtain ⟨y', z, hy', hz, h'⟩ := h'
  rw [hy] at hy'
  obtain rfl := Option.some.inj hy'
  exact ⟨x, z, hx, hz, h.trans h'⟩

theorem Below.irrefl (a : Flt) : ¬ Below a a := by
  rintro ⟨x, y, hx, hy, h⟩
  rw [hx] at hy
  obtain rfl := Option.some.inj hy
  exact h.ne rfl

theorem Below.le {a b : Flt} (h : Below a b) : Flt.le a b := by
  obtain ⟨x, y, rfl, rfl, h⟩ := h
  exact h.le

/-- A strictly increasing list is determined by its entries. -/
theorem below_unique {l l' : List Flt} (h : l.Pairwise Below) (h' : l'.Pairwise Below)
    (hm : ∀ a, a ∈ l ↔ a ∈ l') : l = l' := by
  have : Std.Irrefl Below := ⟨Below.irrefl⟩
  have : Std.Antisymm Below := ⟨fun a b h h' => absurd (h.trans h') (Below.irrefl a)⟩
  have nd : ∀ {l : List Flt}, l.Pairwise Below → l.Nodup := fun h =>
    List.Pairwise.imp (S := (· ≠ ·)) (fun {a b} (hab : Below a b) e => by
      subst e; exact Below.irrefl _ hab) h
  have hn := nd h
  have hn' := nd h'
  exact List.Perm.eq_of_pairwise' h h' ((List.perm_ext_iff_of_nodup hn hn').2 hm)

theorem amin_ge0 {l : List Flt} {m : Flt} (h : amin l = .ok m) : ge0 m ↔ ∀ a ∈ l, ge0 a := by
  cases l with
  | nil => cases h
  | cons a l =>
    simp only [amin] at h
    split_ifs at h with hn
    · obtain rfl := Except.ok.inj h
      exact ⟨fun h => h.elim, fun h => (h none hn).elim⟩
    · obtain rfl := Except.ok.inj h
      have key : ∀ (l : List EReal) (t : EReal), 0 ≤ l.foldl min t ↔ 0 ≤ t ∧ ∀ a ∈ l, 0 ≤ a := by
        intro l
        induction l with
        | nil => intro t; simp
        | cons a l ih => intro t; simp [ih, and_assoc]
      change 0 ≤ _ ↔ _
      rw [key]
      constructor
      · intro h b hb
        obtain ⟨x, rfl⟩ := Option.ne_none_iff_exists'.1 (fun e => hn (e ▸ hb))
        exact h.2 x (by simp only [List.mem_filterMap, id]; exact ⟨_, hb, rfl⟩)
      · intro h
        refine ⟨le_top, fun x hx => ?_⟩
        simp only [List.mem_filterMap, id] at hx
        obtain ⟨b, hb, rfl⟩ := hx
        exact h _ hb

theorem amin_total {l : List Flt} (h : l ≠ []) : ∃ m, amin l = .ok m := by
  cases l with
  | nil => exact absurd rfl h
  | cons a l => simp only [amin]; split_ifs <;> exact ⟨_, rfl⟩

theorem ge0_fsub {x y : EReal} (h : x ≤ y) :
    ge0 (fsub (some y) (some x)) ↔ ¬ (x = ⊤ ∧ y = ⊤) ∧ ¬ (x = ⊥ ∧ y = ⊥) := by
  unfold fsub
  simp only []
  split_ifs with h1
  · simp only [ge0, false_iff]
    tauto
  · have : 0 ≤ y - x := by
      rcases eq_or_ne x ⊤ with rfl | hx
      · exact absurd (Or.inl ⟨top_le_iff.1 h, rfl⟩) h1
      · refine (EReal.sub_nonneg (Or.inr hx) ?_).2 h
        by_contra hc
        rw [not_or, not_not, not_not] at hc
        exact h1 (Or.inr hc)
    simp only [ge0, this, true_iff]
    tauto

/-- The sortedness check on sorted numbers fails only for repeated infinities. -/
theorem diffs_ge0 (k : ρ → Flt) (a : ρ) (l : List ρ) (hs : ((a :: l).map k).Pairwise Flt.le)
    (hn : ∀ r ∈ a :: l, k r ≠ none) :
    (∀ d ∈ List.zipWith (fun a b => fsub (k a) (k b)) l (a :: l).dropLast, ge0 d) ↔
      ((a :: l).map k).count (some ⊤) ≤ 1 ∧ ((a :: l).map k).count (some ⊥) ≤ 1 := by
  induction l generalizing a with
  | nil =>
    have h1 := fun t : Flt => List.count_le_length (a := t) (l := [k a])
    simpa using ⟨h1 (some ⊤), h1 (some ⊥)⟩
  | cons b l ih =>
    rw [List.map_cons, List.pairwise_cons] at hs
    have hn' : ∀ r ∈ b :: l, k r ≠ none := fun r hr => hn r (by simp [List.mem_cons.1 hr])
    obtain ⟨x, hx⟩ := Option.ne_none_iff_exists'.1 (hn a (by simp))
    obtain ⟨y, hy⟩ := Option.ne_none_iff_exists'.1 (hn b (by simp))
    have hxy : x ≤ y := by
      have := hs.1 (k b) (by simp)
      rwa [hx, hy] at this
    have ih' := ih b hs.2 hn'
    rw [List.dropLast_cons_cons, List.zipWith_cons_cons, List.forall_mem_cons, ih', hx, hy,
      ge0_fsub hxy]
    have e : ∀ t : Flt, ((a :: b :: l).map k).count t
        = ((b :: l).map k).count t + if k a = t then 1 else 0 := by
      intro t
      rw [List.map_cons, List.count_cons]
      simp [beq_iff_eq]
    have e' : ∀ t : Flt, ((b :: l).map k).count t
        = (l.map k).count t + if k b = t then 1 else 0 := by
      intro t
      rw [List.map_cons, List.count_cons]
      simp [beq_iff_eq]
    rw [e, e, hx]
    by_cases ht : x = ⊤
    · have hy' : y = ⊤ := top_le_iff.1 (ht ▸ hxy)
      have := e' (some ⊤)
      rw [hy, hy', if_pos rfl] at this
      subst ht
      subst hy'
      simp only [and_self, not_true_eq_false, false_and, if_true, false_iff, not_and]
      omega
    · by_cases hb : x = ⊥
      · by_cases hyb : y = ⊥
        · have := e' (some ⊥)
          rw [hy, hyb, if_pos rfl] at this
          subst hb
          subst hyb
          simp only [and_self, not_true_eq_false, and_false, false_and, if_true, false_iff, not_and]
          omega
        · have h0 : ((b :: l).map k).count (some ⊥) = 0 := by
            rw [List.count_eq_zero]
            intro hm
            rcases List.mem_cons.1 hm with h | h
            · rw [hy] at h; exact hyb (Option.some.inj h).symm
            · have h2 := (List.pairwise_cons.1 (List.map_cons ▸ hs.2)).1 _ h
              rw [hy] at h2
              exact hyb (le_bot_iff.1 h2)
          subst hb
          rw [h0, if_pos rfl, if_neg (by simp), add_zero]
          simp [hyb]
      · simp [ht, hb]

/-- The sortedness check accepts exactly the sorted arrays of at least two numbers without repeated
infinities. -/
theorem checkSorted_iff (k : ρ → Flt) (l : List ρ) (hs : (l.map k).Pairwise Flt.le)
    (hn : ∀ r ∈ l, k r ≠ none) :
    checkSorted (l.map k) = .ok () ↔
      2 ≤ l.length ∧ (l.map k).count (some ⊤) ≤ 1 ∧ (l.map k).count (some ⊥) ≤ 1 := by
  classical
  unfold checkSorted
  rw [zip_diff, py_bind]
  cases l with
  | nil =>
    constructor
    · intro h; cases h
    · intro h; simp at h
  | cons a l =>
    rw [List.tail_cons, ← diffs_ge0 k a l hs hn]
    cases l with
    | nil =>
      constructor
      · intro h; cases h
      · intro h; simp at h
    | cons b l =>
      obtain ⟨m, hm⟩ := amin_total
        (l := List.zipWith (fun a b => fsub (k a) (k b)) (b :: l) (a :: b :: l).dropLast) (by simp)
      rw [hm, py_bind, pyAssert_ok, amin_ge0 hm]
      simp

/-- If the check does not succeed it raises. -/
theorem checkSorted_few (k : ρ → Flt) (l : List ρ) (h : l.length < 2) :
    checkSorted (l.map k) = .error .value := by
  unfold checkSorted
  rw [zip_diff, py_bind]
  match l, h with
  | [], _ => rfl
  | [a], _ => rfl

/-- The measured points without NaN. -/
def valid (x y : List Flt) : List (Flt × Flt) :=
  (x.zip y).filter fun p => notNan p.1 && notNan p.2

theorem removeNansXy_eq {x y : List Flt} (h : x.length = y.length) :
    removeNansXy x y = .ok ((valid x y).map Prod.fst, (valid x y).map Prod.snd) := by
  have hx : (x.zip y).map Prod.fst = x := List.map_fst_zip h.le
  have hy : (x.zip y).map Prod.snd = y := List.map_snd_zip h.ge
  have hm : zip (· && ·) (x.map notNan) (y.map notNan)
      = .ok ((x.zip y).map fun p => notNan p.1 && notNan p.2) := by
    unfold zip
    rw [if_pos (by simpa using h)]
    congr 1
    rw [List.zip, List.zipWith_map, List.map_zipWith]
  unfold removeNansXy
  rw [hm, py_bind]
  have e1 := select_map (x.zip y) Prod.fst fun p => notNan p.1 && notNan p.2
  have e2 := select_map (x.zip y) Prod.snd fun p => notNan p.1 && notNan p.2
  rw [hx] at e1
  rw [hy] at e2
  rw [e1, py_bind, e2, py_bind]
  rfl

/-- The records in the order given by the sorter. -/
def sortBy (S : Sorter) (k : ρ → Flt) (d : ρ) (l : List ρ) : List ρ :=
  (S.argsort (l.map k)).map fun i => l.getD i d

theorem sortBy_perm (S : Sorter) (k : ρ → Flt) (d : ρ) (l : List ρ) : (sortBy S k d l).Perm l :=
  reorder_perm l d (by simpa using S.perm (l.map k))

theorem sorter_lt (S : Sorter) {l : List Flt} {i : ℕ} (h : i ∈ S.argsort l) : i < l.length :=
  List.mem_range.1 ((S.perm l).mem_iff.1 h)

theorem sortBy_sorted (S : Sorter) (k : ρ → Flt) (d : ρ) (l : List ρ) :
    ((sortBy S k d l).map k).Pairwise Flt.le := by
  have h := S.sorted (l.map k)
  have e : (sortBy S k d l).map k = (S.argsort (l.map k)).map fun i => (l.map k).getD i none := by
    unfold sortBy
    rw [List.map_map]
    apply List.map_congr_left
    intro i hi
    have : i < l.length := by simpa using sorter_lt S hi
    simp [this]
  rw [e]
  exact h

theorem sortXy_eq (S : Sorter) (l : List (Flt × Flt)) (d : Flt × Flt) :
    sortXy S (l.map Prod.fst) (l.map Prod.snd)
      = .ok ((sortBy S Prod.fst d l).map Prod.fst, (sortBy S Prod.fst d l).map Prod.snd) := by
  have hi : ∀ i ∈ S.argsort (l.map Prod.fst), i < l.length := fun i h => by
    simpa using sorter_lt S h
  unfold sortXy
  dsimp only
  rw [takeIdx_map l d Prod.fst hi, py_bind, takeIdx_map l d Prod.snd hi, py_bind]
  rfl

theorem removeDoublesXy_eq (l : List (Flt × Flt)) (check : Bool) :
    removeDoublesXy (l.map Prod.fst) (l.map Prod.snd) check
      = (do if check then checkSorted (l.map Prod.fst) else pure ()
            pure ((keep Prod.fst l).map Prod.fst, (keep Prod.fst l).map Prod.snd)) := by
  obtain ⟨m, hm, hs⟩ := select_doubleMask Prod.fst l
  unfold removeDoublesXy
  rw [hm, py_bind, hs Prod.fst, py_bind, hs Prod.snd, py_bind]

/-- The whole of `clean_xy`. -/
theorem cleanXy_eq (S : Sorter) {x y : List Flt} (h : x.length = y.length) :
    cleanXy S x y = (do
      checkSorted ((sortBy S Prod.fst (none, none) (valid x y)).map Prod.fst)
      pure ((keep Prod.fst (sortBy S Prod.fst (none, none) (valid x y))).map Prod.fst,
        (keep Prod.fst (sortBy S Prod.fst (none, none) (valid x y))).map Prod.snd)) := by
  unfold cleanXy
  rw [pyAssert_pos h, removeNansXy_eq h, py_bind, sortXy_eq S _ (none, none), py_bind,
    removeDoublesXy_eq]
  rfl

theorem valid_ne {x y : List Flt} {p : Flt × Flt} :
    p ∈ valid x y ↔ p ∈ x.zip y ∧ p.1 ≠ none ∧ p.2 ≠ none := by
  unfold valid notNan
  simp [List.mem_filter, Option.isSome_iff_ne_none]

theorem cleanXy_ok (S : Sorter) {x y x' y' : List Flt} (h : cleanXy S x y = .ok (x', y')) :
    x.length = y.length ∧
    checkSorted ((sortBy S Prod.fst (none, none) (valid x y)).map Prod.fst) = .ok () ∧
    x' = (keep Prod.fst (sortBy S Prod.fst (none, none) (valid x y))).map Prod.fst ∧
    y' = (keep Prod.fst (sortBy S Prod.fst (none, none) (valid x y))).map Prod.snd := by
  have hl : x.length = y.length := by
    by_contra hc
    unfold cleanXy at h
    rw [pyAssert_neg hc] at h
    cases h
  rw [cleanXy_eq S hl] at h
  obtain ⟨u, hu, h⟩ := bind_ok_iff.1 h
  have := pure_ok_iff.1 h
  exact ⟨hl, hu, (congrArg Prod.fst this).symm, (congrArg Prod.snd this).symm⟩

end QMix.Clean
