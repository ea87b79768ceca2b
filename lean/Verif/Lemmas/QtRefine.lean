import Verif.Lemmas.Py
import Verif.Lemmas.Bessel
import Verif.Model.QtCurrent
import Verif.Spec.Mtsda
import Mathlib.Algebra.BigOperators.Pi

/-! The model of `qtcurrent` computes the MTSDA specification. -/

namespace QMix.Qt

open Complex Finset

variable {ι : Type} {α : Type*}

/-- The array `arr` of size `2 M + 1` represents the two-sided sequence `c` on `[-M, M]`. -/
def Rep (M : ℕ) (arr : List α) (c : ℤ → α) : Prop :=
  arr.length = 2 * M + 1 ∧ ∀ k : ℤ, |k| ≤ M → pyGet arr k = .ok (c k)

/-- Reading the array at `[-M, M]` gives `c`; nothing is said about its size. -/
def Reads (M : ℕ) (arr : List α) (c : ℤ → α) : Prop :=
  ∀ k : ℤ, |k| ≤ M → pyGet arr k = .ok (c k)

theorem Rep.congr {M : ℕ} {arr : List α} {c c' : ℤ → α} (h : Rep M arr c)
    (hc : ∀ k : ℤ, |k| ≤ M → c k = c' k) : Rep M arr c' :=
  ⟨h.1, fun k hk => by rw [h.2 k hk, hc k hk]⟩

theorem rep_replicate (M : ℕ) (x : α) : Rep M (List.replicate (M * 2 + 1) x) fun _ => x := by
  refine ⟨by simp [Nat.mul_comm], fun k hk => ?_⟩
  obtain ⟨i, hi⟩ := pyIndex_of_abs hk
  have hlt := pyIndex_lt hi
  apply pyGet_ok_of_getElem? (i := i)
  · rw [List.length_replicate, Nat.mul_comm]; exact hi
  · rw [List.getElem?_replicate, if_pos (by omega)]

theorem Rep.set {M : ℕ} {arr : List α} {c : ℤ → α} (h : Rep M arr c) {k : ℤ} (hk : |k| ≤ M)
    (x : α) : ∃ arr', pySet arr k x = .ok arr' ∧ Rep M arr' (Function.update c k x) := by
  obtain ⟨i, hi⟩ := pyIndex_of_abs hk
  have hi' : pyIndex arr.length k = .ok i := by rw [h.1]; exact hi
  refine ⟨_, pySet_eq x hi', by simp [h.1], fun l hl => ?_⟩
  by_cases hlk : l = k
  · subst hlk
    rw [Function.update_self]
    exact pyGet_set_same x hi'
  · rw [Function.update_of_ne hlk]
    obtain ⟨j, hj⟩ := pyIndex_of_abs hl
    have hj' : pyIndex arr.length l = .ok j := by rw [h.1]; exact hj
    rw [pyGet_set_ne x hj', h.2 l hl]
    rintro rfl
    exact hlk (pyIndex_inj hl hk hj hi)

theorem Rep.get {M : ℕ} {arr : List α} {c : ℤ → α} (h : Rep M arr c) {k : ℤ} (hk : |k| ≤ M) :
    pyGet arr k = .ok (c k) := h.2 k hk

theorem Rep.map {β : Type*} {M : ℕ} {arr : List α} {c : ℤ → α} (h : Rep M arr c) (g : α → β) :
    Rep M (arr.map g) fun k => g (c k) := by
  refine ⟨by simp [h.1], fun k hk => ?_⟩
  obtain ⟨i, hi⟩ := pyIndex_of_abs hk
  have hi' : pyIndex arr.length k = .ok i := by rw [h.1]; exact hi
  obtain ⟨hlt, hg⟩ := pyGet_eq hi'
  rw [h.2 k hk] at hg
  apply pyGet_ok_of_getElem? (i := i)
  · simpa using hi'
  · rw [List.getElem?_map, List.getElem?_eq_getElem hlt]
    simp only [Option.map_some, Option.some.injEq]
    rw [Except.ok.inj hg]

/-! ### Jacobi-Anger arrays -/

theorem jacArr_rep (v : Arr ι) (w : ℝ) (p maxb nbf : ℕ) (hle : nbf ≤ maxb) :
    ∃ arr, jacArr v w p maxb nbf = .ok arr ∧
      Rep maxb arr fun n i => Spec.jacobiAnger (v i) w p nbf n := by
  unfold jacArr
  set alpha : ι → ℝ := fun i => ‖v i‖ / (p * w) with halpha
  set phi : ι → ℝ := fun i => arg (v i) with hphi
  obtain ⟨a0, h0, r0⟩ := (rep_replicate maxb (0 : Arr ι)).set (k := 0) (by simp)
    (fun i => (besselJ 0 (alpha i) : ℂ))
  -- value of the array when the orders in `done` have been processed
  let val : List ℤ → ℤ → Arr ι := fun done n =>
    if n = 0 ∨ |n| ∈ done then fun i => (besselJ n (alpha i) : ℂ) * exp (-I * n * phi i) else 0
  have key := pyFor_inv (l := pyRange 1 (nbf + 1))
    (body := fun (jac : List (Arr ι)) (n : ℤ) => (do
      let jac ← pySet jac n fun i => (besselJ n (alpha i) : ℂ) * exp (-I * n * phi i)
      let x ← pyGet jac n
      pySet jac (-n) fun i => (-1) ^ n * conjA x i : Py (List (Arr ι))))
    (fun done arr => Rep maxb arr (val done)) a0
    (r0.congr (by
      intro k _
      by_cases hk : k = 0
      · subst hk; simp [val]
      · rw [Function.update_of_ne hk]
        simp [val, hk]))
    (by
      intro pre n post s hl hs
      have hn : n ∈ pyRange 1 ((nbf : ℤ) + 1) := by rw [hl]; simp
      rw [mem_pyRange] at hn
      have hnM : |n| ≤ maxb := by rw [abs_le]; omega
      obtain ⟨s1, e1, r1⟩ := hs.set hnM (fun i => (besselJ n (alpha i) : ℂ) * exp (-I * n * phi i))
      obtain ⟨s2, e2, r2⟩ := r1.set (k := -n) (by rwa [abs_neg])
        (fun i => (-1) ^ n * conjA (fun i => (besselJ n (alpha i) : ℂ) * exp (-I * n * phi i)) i)
      refine ⟨s2, ?_, ?_⟩
      · rw [e1]
        change (do let x ← pyGet s1 n; pySet s1 (-n) fun i => (-1) ^ n * conjA x i) = _
        rw [r1.get hnM, Function.update_self]
        exact e2
      · refine r2.congr fun k _ => ?_
        by_cases hk1 : k = -n
        · subst hk1
          rw [Function.update_self]
          have hmem : |(-n)| ∈ pre ++ [n] := by rw [abs_neg, abs_of_pos (by omega)]; simp
          simp only [val, if_pos (Or.inr hmem)]
          funext i
          simp only [conjA, map_mul, conj_ofReal]
          rw [besselJ_neg, ← exp_conj]
          push_cast
          simp only [map_mul, map_neg, conj_I, conj_ofReal, map_intCast]
          ring_nf
        · rw [Function.update_of_ne hk1]
          by_cases hk2 : k = n
          · subst hk2
            rw [Function.update_self]
            have hmem : |k| ∈ pre ++ [k] := by rw [abs_of_pos (by omega)]; simp
            simp only [val, if_pos (Or.inr hmem)]
          · rw [Function.update_of_ne hk2]
            have : |k| ∈ pre ++ [n] ↔ |k| ∈ pre := by
              simp only [List.mem_append, List.mem_singleton]
              constructor
              · rintro (h | h)
                · exact h
                · exfalso
                  rcases abs_choice k with h' | h' <;> omega
              · exact Or.inl
            simp only [val, this])
  obtain ⟨arr, harr, hrep⟩ := key
  refine ⟨arr, ?_, ?_⟩
  · simp only []
    rw [h0]
    exact harr
  · refine hrep.congr fun k _ => ?_
    simp only [val, Spec.jacobiAnger]
    by_cases hk : |k| ≤ (nbf : ℤ)
    · have : k = 0 ∨ |k| ∈ pyRange 1 ((nbf : ℤ) + 1) := by
        by_cases h : k = 0
        · exact Or.inl h
        · right
          rw [mem_pyRange]
          have := abs_pos.2 h
          omega
      rw [if_pos this]
      funext i
      rw [if_pos hk]
    · have : ¬ (k = 0 ∨ |k| ∈ pyRange 1 ((nbf : ℤ) + 1)) := by
        rintro (h | h)
        · subst h; simp at hk
        · rw [mem_pyRange] at h; omega
      rw [if_neg this]
      funext i
      rw [if_neg hk]
      rfl

/-! ### Convolution -/

theorem tdiv_bounds {k nb l : ℤ} {p : ℕ} (hp : 0 < p) (h1 : -nb ≤ k) (h2 : k ≤ nb) :
    (max (-nb) (Int.tdiv (k - nb) p) ≤ l ∧ l < min nb (Int.tdiv (k + nb) p) + 1) ↔
      (|l| ≤ nb ∧ |k - p * l| ≤ nb) := by
  have hp' : (0 : ℤ) < p := by exact_mod_cast hp
  have e1 : Int.tdiv (k - nb) p = -((nb - k) / p) := by
    rw [show k - nb = -(nb - k) by ring, Int.neg_tdiv, Int.tdiv_eq_ediv_of_nonneg (by omega)]
  have e2 : Int.tdiv (k + nb) p = (k + nb) / p := Int.tdiv_eq_ediv_of_nonneg (by omega)
  rw [e1, e2, abs_le, abs_le, max_le_iff, Int.lt_add_one_iff, le_min_iff]
  have q1 : -((nb - k) / (p : ℤ)) ≤ l ↔ k - p * l ≤ nb := by
    rw [neg_le, Int.le_ediv_iff_mul_le hp']
    constructor <;> intro h <;> nlinarith
  have q2 : l ≤ (k + nb) / (p : ℤ) ↔ -nb ≤ k - p * l := by
    rw [Int.le_ediv_iff_mul_le hp']
    constructor <;> intro h <;> nlinarith
  rw [q1, q2]
  tauto

theorem convStep_rep {M p : ℕ} (hp : 0 < p) {last jp : List (Arr ι)} {cl cj : ℤ → Arr ι}
    (hl : Rep M last cl) (hj : Rep M jp cj) :
    ∃ arr, convStep p last jp = .ok arr ∧ Rep M arr fun k =>
      ∑ l ∈ Icc (-(M : ℤ)) M, if |k - p * l| ≤ M then cl (k - p * l) * cj l else 0 := by
  unfold convStep
  have hM : (((jp.length - 1) / 2 : ℕ) : ℤ) = M := by rw [hj.1]; congr 1; omega
  simp only [hM]
  have hlen : last.length = M * 2 + 1 := by rw [hl.1]; ring
  rw [hlen]
  set term : ℤ → Arr ι := fun k =>
    ∑ l ∈ Icc (-(M : ℤ)) M, if |k - p * l| ≤ M then cl (k - p * l) * cj l else 0 with hterm
  -- inner loop
  have inner : ∀ (k : ℤ), |k| ≤ M → ∀ (nxt : List (Arr ι)) (c : ℤ → Arr ι), Rep M nxt c →
      ∃ arr, pyFor (pyRange (max (-(M : ℤ)) (Int.tdiv (k - M) p))
          (min (M : ℤ) (Int.tdiv (k + M) p) + 1)) nxt (fun nxt l => (do
            let cur ← pyGet nxt k
            let a ← pyGet last (k - p * l)
            let b ← pyGet jp l
            pySet nxt k (cur + a * b) : Py (List (Arr ι)))) = .ok arr ∧
        Rep M arr (Function.update c k (c k + term k)) := by
    intro k hk nxt c hc
    have hk' := abs_le.1 hk
    set lst := pyRange (max (-(M : ℤ)) (Int.tdiv (k - M) p)) (min (M : ℤ) (Int.tdiv (k + M) p) + 1)
      with hlst
    have hmem : ∀ l, l ∈ lst ↔ (|l| ≤ M ∧ |k - p * l| ≤ M) := by
      intro l
      rw [hlst, mem_pyRange]
      exact tdiv_bounds hp hk'.1 hk'.2
    have hsum : (lst.map fun l => cl (k - p * l) * cj l).sum = term k := by
      have h1 := sum_nodup_eq (l := lst) (pyRange_nodup _ _)
        (s := (Icc (-(M : ℤ)) M).filter fun l => |k - p * l| ≤ M)
        (by intro l; rw [hmem, mem_filter, mem_Icc, abs_le])
        (fun l => cl (k - p * l) * cj l)
      rw [h1, hterm, sum_filter]
    have := pyFor_inv (l := lst) (body := fun nxt l => (do
            let cur ← pyGet nxt k
            let a ← pyGet last (k - p * l)
            let b ← pyGet jp l
            pySet nxt k (cur + a * b) : Py (List (Arr ι))))
      (fun pre arr => Rep M arr (Function.update c k
        (c k + (pre.map fun l => cl (k - p * l) * cj l).sum))) nxt
      (by simpa using hc)
      (by
        intro pre l post s hpre hs
        have hl' : l ∈ lst := by rw [hpre]; simp
        rw [hmem] at hl'
        obtain ⟨s1, e1, r1⟩ := hs.set hk
          (c k + (pre.map fun l => cl (k - p * l) * cj l).sum + cl (k - p * l) * cj l)
        refine ⟨s1, ?_, ?_⟩
        · rw [hs.get hk, hl.get hl'.2, hj.get hl'.1, Function.update_self]
          exact e1
        · refine r1.congr fun m _ => ?_
          rw [Function.update_idem, List.map_append, List.sum_append, add_assoc]
          simp)
    rw [hsum] at this
    exact this
  have outer := pyFor_inv (l := pyRange (-(M : ℤ)) (M + 1))
    (body := fun nxt k => pyFor (pyRange (max (-(M : ℤ)) (Int.tdiv (k - M) p))
          (min (M : ℤ) (Int.tdiv (k + M) p) + 1)) nxt (fun nxt l => (do
            let cur ← pyGet nxt k
            let a ← pyGet last (k - p * l)
            let b ← pyGet jp l
            pySet nxt k (cur + a * b) : Py (List (Arr ι)))))
    (fun pre arr => Rep M arr fun k => if k ∈ pre then term k else 0)
    (List.replicate (M * 2 + 1) 0)
    (by simpa using rep_replicate M (0 : Arr ι))
    (by
      intro pre k post s hpre hs
      have hk : k ∈ pyRange (-(M : ℤ)) (M + 1) := by rw [hpre]; simp
      have hnd : (pre ++ k :: post).Nodup := by rw [← hpre]; exact pyRange_nodup _ _
      have hkpre : k ∉ pre := by
        rw [List.nodup_append] at hnd
        intro h
        exact hnd.2.2 k h k (by simp) rfl
      rw [mem_pyRange] at hk
      obtain ⟨arr, e, r⟩ := inner k (by rw [abs_le]; omega) s _ hs
      refine ⟨arr, e, r.congr fun m _ => ?_⟩
      by_cases hm : m = k
      · subst hm
        rw [Function.update_self, if_neg hkpre, zero_add, if_pos (by simp)]
      · rw [Function.update_of_ne hm]
        simp [hm])
  obtain ⟨arr, e, r⟩ := outer
  refine ⟨arr, e, r.congr fun k hk => ?_⟩
  rw [if_pos]
  rw [mem_pyRange]
  rw [abs_le] at hk
  omega

/-- `harmonicConv` of one harmonic. -/
theorem harmonicConv_one (M : ℕ) (A : ℕ → ℤ → ℂ) {k : ℤ} (hk : |k| ≤ M) :
    Spec.harmonicConv M A 1 k = A 1 k := by
  unfold Spec.harmonicConv
  rw [Finset.sum_eq_single k]
  · simp [Spec.harmonicConv]
  · intro l _ hl
    simp only [Spec.harmonicConv]
    split_ifs with h1 h2
    · push_cast at h2; omega
    · simp
    · rfl
  · intro h
    rw [mem_Icc] at h
    exact absurd (abs_le.1 hk) h

theorem convolve_rep {M numP : ℕ} (hP : 1 ≤ numP) {jac : ℕ → List (Arr ι)} {A : ι → ℕ → ℤ → ℂ}
    (h : ∀ p, 1 ≤ p → p ≤ numP → Rep M (jac p) fun n i => A i p n) :
    ∃ arr, convolve numP jac = .ok arr ∧
      Rep M arr fun k i => Spec.harmonicConv M (A i) numP k := by
  have h1 := (h 1 le_rfl hP).congr (c' := fun k i => Spec.harmonicConv M (A i) 1 k)
    (fun k hk => by funext i; rw [harmonicConv_one M _ hk])
  unfold convolve
  by_cases hp : numP = 1
  · rw [if_pos hp]
    subst hp
    exact ⟨_, rfl, h1⟩
  · rw [if_neg hp]
    obtain ⟨arr, e, r⟩ := pyFor_inv (l := pyRange 2 ((numP : ℤ) + 1))
      (body := fun last (p : ℤ) => convStep p.toNat last (jac p.toNat))
      (fun pre arr => Rep M arr fun k i => Spec.harmonicConv M (A i) (pre.length + 1) k) (jac 1)
      h1
      (by
        intro pre p post s hpre hs
        have hp' : p ∈ pyRange 2 ((numP : ℤ) + 1) := by rw [hpre]; simp
        have hval : p = 2 + pre.length := by
          have hg : (pyRange 2 ((numP : ℤ) + 1))[pre.length]? = some p := by rw [hpre]; simp
          unfold pyRange at hg
          rw [List.getElem?_map, List.getElem?_range] at hg
          · simpa using hg.symm
          · have := congrArg List.length hpre
            rw [pyRange_length] at this
            rw [this]
            simp
        rw [mem_pyRange] at hp'
        have hnat : p.toNat = pre.length + 1 + 1 := by omega
        obtain ⟨arr, e, r⟩ := convStep_rep (p := p.toNat) (by omega) hs
          (h p.toNat (by omega) (by omega))
        refine ⟨arr, e, r.congr fun k hk => ?_⟩
        funext i
        rw [Finset.sum_apply]
        simp only [List.length_append, List.length_singleton]
        rw [hnat]
        conv_rhs => unfold Spec.harmonicConv
        refine Finset.sum_congr rfl fun l _ => ?_
        split_ifs with hif
        · rfl
        · rfl)
    refine ⟨arr, e, ?_⟩
    have hlen : (pyRange 2 ((numP : ℤ) + 1)).length + 1 = numP := by
      rw [pyRange_length]; omega
    rwa [hlen] at r

theorem pyMax_ge {l : List ℕ} {M : ℕ} (h : pyMax l = .ok M) : ∀ x ∈ l, x ≤ M := by
  cases l with
  | nil => cases h
  | cons y ys =>
    simp only [pyMax, Except.ok.injEq] at h
    subst h
    have : ∀ (ys : List ℕ) (y : ℕ), y ≤ ys.foldl max y ∧ ∀ x ∈ ys, x ≤ ys.foldl max y := by
      intro ys
      induction ys with
      | nil => intro y; simp
      | cons z zs ih =>
        intro y
        obtain ⟨h1, h2⟩ := ih (max y z)
        simp only [List.foldl_cons, List.mem_cons, forall_eq_or_imp]
        exact ⟨le_trans (le_max_left _ _) h1, le_trans (le_max_right _ _) h1, h2⟩
    intro x hx
    rcases List.mem_cons.1 hx with rfl | hx
    · exact (this ys x).1
    · exact (this ys y).2 x hx

theorem jacTone_rep (vj : ℕ → ℕ → Arr ι) (w : ℝ) (f maxb nbf : ℕ) (hle : nbf ≤ maxb) (P : ℕ) :
    ∃ jac, jacTone vj w f maxb nbf P = .ok jac ∧
      ∀ p, 1 ≤ p → p ≤ P → Rep maxb (jac p) fun n i => Spec.jacobiAnger (vj f p i) w p nbf n := by
  induction P with
  | zero => exact ⟨_, rfl, fun p h1 h2 => by omega⟩
  | succ P ih =>
    obtain ⟨jac, e, r⟩ := ih
    obtain ⟨arr, e2, r2⟩ := jacArr_rep (vj f (P + 1)) w (P + 1) maxb nbf hle
    refine ⟨fun q => if q = P + 1 then arr else jac q, ?_, ?_⟩
    · unfold jacTone
      rw [e]
      change (do let a ← jacArr (vj f (P + 1)) w (P + 1) maxb nbf
                 pure fun q => if q = P + 1 then a else jac q) = _
      rw [e2]
      rfl
    · intro p h1 h2
      by_cases hp : p = P + 1
      · subst hp; simpa using r2
      · simp only [if_neg hp]
        exact r p h1 (by omega)

theorem phaseTone_rep (vj : ℕ → ℕ → Arr ι) (freq : ℕ → ℝ) (numP : ℕ) (hP : 1 ≤ numP)
    {tup : List ℕ} {M nbf f : ℕ} (hM : pyMax tup = .ok M) (hf : 1 ≤ f)
    (hnb : tup[f - 1]? = some nbf) :
    ∃ arr, phaseTone vj freq numP tup f = .ok arr ∧
      Rep M arr fun k i => Spec.toneCoeff (fun p => vj f p i) (freq f) numP nbf M k := by
  have hlt : f - 1 < tup.length := (List.getElem?_eq_some_iff.1 hnb).1
  have hget : pyGet tup ((f : ℤ) - 1) = .ok nbf := by
    apply pyGet_ok_of_getElem? (i := f - 1) _ hnb
    rw [pyIndex_nonneg (by omega) (by omega)]
    congr 1
    omega
  have hle : nbf ≤ M := pyMax_ge hM nbf (List.mem_of_getElem? hnb)
  obtain ⟨jac, e1, r1⟩ := jacTone_rep vj (freq f) f M nbf hle numP
  obtain ⟨arr, e2, r2⟩ := convolve_rep (A := fun i p => Spec.jacobiAnger (vj f p i) (freq f) p nbf)
    hP r1
  refine ⟨arr, ?_, r2⟩
  unfold phaseTone
  rw [hM]
  change (do let nbf ← pyGet tup ((f : ℤ) - 1)
             let jac ← jacTone vj (freq f) f M nbf numP
             convolve numP jac) = _
  rw [hget]
  change (do let jac ← jacTone vj (freq f) f M nbf numP; convolve numP jac) = _
  rw [e1]
  exact e2

theorem phaseTones_rep (vj : ℕ → ℕ → Arr ι) (freq : ℕ → ℝ) (numP : ℕ) (hP : 1 ≤ numP)
    {tup : List ℕ} {M : ℕ} (hM : pyMax tup = .ok M) (n : ℕ) (hn : n ≤ tup.length) :
    ∃ ccc, phaseTones vj freq numP tup n = .ok ccc ∧
      ∀ f nbf, 1 ≤ f → f ≤ n → tup[f - 1]? = some nbf →
        Rep M (ccc f) fun k i => Spec.toneCoeff (fun p => vj f p i) (freq f) numP nbf M k := by
  induction n with
  | zero => exact ⟨_, rfl, fun f _ h1 h2 => by omega⟩
  | succ n ih =>
    obtain ⟨ccc, e, r⟩ := ih (by omega)
    obtain ⟨arr, e2, r2⟩ := phaseTone_rep vj freq numP hP (f := n + 1) hM (by omega)
      (nbf := tup[n]'(by omega)) (by simp)
    refine ⟨fun g => if g = n + 1 then arr else ccc g, ?_, ?_⟩
    · unfold phaseTones
      rw [e]
      change (do let c ← phaseTone vj freq numP tup (n + 1)
                 pure fun g => if g = n + 1 then c else ccc g) = _
      rw [e2]
      rfl
    · intro f nbf h1 h2 hnb
      by_cases hf : f = n + 1
      · subst hf
        have hlt : n < tup.length := by omega
        have : tup[n] = nbf := by
          have := hnb
          simp only [Nat.add_sub_cancel, List.getElem?_eq_getElem hlt, Option.some.injEq] at this
          exact this
        subst this
        simpa using r2
      · simp only [if_neg hf]
        exact r f nbf h1 (by omega) hnb

end QMix.Qt
