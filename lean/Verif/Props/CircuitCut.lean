import Verif.Lemmas.CircuitCut
import Verif.Props.CircuitIO

/-!
# Property C186: reading a circuit file that was cut off
-/

namespace QMix.Props

open QMix.IO

theorem entry_map {α : Type} {n m : ℕ} (g : ℕ → ℕ → α) {i j : ℕ} (hi : i < n) (hj : j < m) :
    entry ((List.range n).map fun i => (List.range m).map (g i)) i j = some (g i j) := by
  simp [entry, hi, hj]

/-- C186. What can be read without an error from the beginning `t` of a saved file, whose whole text is read as `full`: the number of
tones is right, and the first `n` signals of the file (in the order of the file, the signal `f, p` has the number
`(f - 1) * num_p + (p - 1)`) are read as from the whole file, except that the impedance of the last one of them may be wrong, and then
it has no imaginary part; all other signals are zero. If `t` ends with a line break, also this impedance and the number of harmonics are right; if it does not, the
number of harmonics may be wrong, but only when no signal is read. (The claim that a file that was cut off is refused is false, see
`C186_missing` and `C186_impedance`.) -/
theorem C186_cut_partial (T : FloatFormat) (c : IO.Circuit) (h : FileCircuit T c) {text t : List Char} {full c' : IO.Circuit}
    (hs : save c = .ok text) (hf : read T text = .ok full) (ht : t <+: text) (hr : read T t = .ok c') :
    c'.numF = c.numF ∧ ∃ n, (n = 0 ∨ c'.numP = c.numP) ∧ (t.getLast? = some '\n' → c'.numP = c.numP) ∧
      ∀ f p, 1 ≤ f → f ≤ c.numF → 1 ≤ p → p ≤ c'.numP →
        ((f - 1) * c.numP + (p - 1) < n →
          c'.freq[f]? = full.freq[f]? ∧ entry c'.vt f p = entry full.vt f p ∧
          (entry c'.zt f p = entry full.zt f p ∨ ∃ x, entry c'.zt f p = some (x, zeroFlt)) ∧
          ((f - 1) * c.numP + (p - 1) + 1 < n ∨ t.getLast? = some '\n' → entry c'.zt f p = entry full.zt f p)) ∧
        (n ≤ (f - 1) * c.numP + (p - 1) →
          entry c'.vt f p = some (zeroFlt, zeroFlt) ∧ entry c'.zt f p = some (zeroFlt, zeroFlt)) := by
  obtain ⟨fq, v, z, hc, -, -, -⟩ := fileCircuit_mk h
  have hs' : save c = .ok (allLines c.numF c.numP fq v z).flatten := by
    conv_lhs => rw [hc]
    exact save_mk _ _ _ _ _
  rw [hs] at hs'
  cases hs'
  rw [read_save T h.tones h.harmonics fq v z] at hf
  cases hf
  rcases read_prefix T h.tones h.harmonics fq v z ht hr with ⟨P', rfl, hl⟩ | ⟨m, hm, rfl⟩ | ⟨m, hm, s, hsm, hl, zt, q0, q1, q2, q3, q4, q5⟩
  · refine ⟨rfl, 0, Or.inl rfl, fun e => absurd e hl, ?_⟩
    intro f p f1 f2 p1 p2
    refine ⟨fun e => absurd e (Nat.not_lt_zero _), fun _ => ?_⟩
    have p2' : p < P' + 1 := Nat.lt_succ_of_le p2
    simp only [part, mk]
    rw [entry_map _ (by omega) p2', entry_map _ (by omega) p2']
    simp
  · refine ⟨rfl, m, Or.inr rfl, fun _ => rfl, ?_⟩
    intro f p f1 f2 p1 p2
    have p2' : p ≤ c.numP := p2
    have mem := mem_sig_take (m := m) f1 f2 p1 p2'
    simp only [part, mk]
    rw [entry_map _ (by omega) (by omega), entry_map _ (by omega) (by omega), entry_map _ (by omega) (by omega),
      entry_map _ (by omega) (by omega)]
    constructor
    · intro k
      have k' := mem.2 k
      have kx : ∃ p, (f, p) ∈ (sig c.numF c.numP).take m := ⟨p, k'⟩
      rw [if_pos k', if_pos k', if_pos ⟨f1, p1⟩, if_pos ⟨f1, p1⟩]
      refine ⟨?_, rfl, Or.inl rfl, fun _ => rfl⟩
      rw [List.getElem?_map, List.getElem?_map, List.getElem?_range (by omega), Option.map_some, Option.map_some, if_pos kx, if_pos f1]
    · intro k
      have k' : (f, p) ∉ (sig c.numF c.numP).take m := fun e => absurd (mem.1 e) (by omega)
      rw [if_neg k', if_neg k']
      exact ⟨rfl, rfl⟩
  · have hP : 0 < c.numP := h.harmonics
    refine ⟨q1, m + 1, Or.inr q2, fun e => absurd e hl, ?_⟩
    have hsm' := hsm
    rw [sig_eq, List.getElem?_map, List.getElem?_range hm, Option.map_some, Option.some.injEq] at hsm'
    have hs_mem : s ∈ sig c.numF c.numP := List.mem_of_getElem? hsm
    obtain ⟨⟨s1, s2⟩, s3, s4⟩ := mem_sig.1 (show (s.1, s.2) ∈ _ from hs_mem)
    have hpos : (s.1 - 1) * c.numP + (s.2 - 1) = m := by
      rw [← hsm']
      simp only [Nat.add_sub_cancel]
      rw [Nat.mul_comm]
      exact Nat.div_add_mod m c.numP
    simp only [part, mk] at q5
    rw [set2_map _ _ (by omega) (by omega)] at q5
    have q5' := Except.ok.inj q5
    intro f p f1 f2 p1 p2
    rw [q2] at p2
    have mem := mem_sig_take (m := m) f1 f2 p1 p2
    have mem' := mem_sig_take (m := m + 1) f1 f2 p1 p2
    rw [q3, q4, ← q5', entry_map _ (by omega) (by omega)]
    have other : (f - 1) * c.numP + (p - 1) ≠ m → ∀ (g : ℕ → ℕ → Flt × Flt), Function.update g s.1 (Function.update (g s.1) s.2 zt) f p = g f p := by
      intro hne g
      by_cases e1 : f = s.1
      · subst e1
        rw [Function.update_self]
        by_cases e2 : p = s.2
        · subst e2; exact absurd hpos hne
        · rw [Function.update_of_ne e2]
      · rw [Function.update_of_ne e1]
    simp only [part, mk]
    rw [entry_map _ (by omega) (by omega), entry_map _ (by omega) (by omega), entry_map _ (by omega) (by omega)]
    constructor
    · intro k
      have k' := mem'.2 k
      have kx : ∃ p, (f, p) ∈ (sig c.numF c.numP).take (m + 1) := ⟨p, k'⟩
      rw [if_pos k', if_pos ⟨f1, p1⟩, if_pos ⟨f1, p1⟩]
      refine ⟨?_, rfl, ?_, ?_⟩
      · rw [List.getElem?_map, List.getElem?_map, List.getElem?_range (by omega), Option.map_some, Option.map_some, if_pos kx, if_pos f1]
      · by_cases hm' : (f - 1) * c.numP + (p - 1) = m
        · have hfp : (f, p) = s := by
            rw [← hsm', ← hm', Nat.mul_comm, Nat.mul_add_div hP, Nat.div_eq_of_lt (by omega), Nat.mul_add_mod,
              Nat.mod_eq_of_lt (by omega)]
            ext
            · show f = f - 1 + 0 + 1; omega
            · show p = p - 1 + 1; omega
          have e1 : f = s.1 := congrArg Prod.fst hfp
          have e2 : p = s.2 := congrArg Prod.snd hfp
          subst e1 e2
          rw [Function.update_self, Function.update_self]
          rcases q0 with q0 | q0
          · exact Or.inl (by rw [q0])
          · exact Or.inr ⟨zt.1, by rw [← q0]⟩
        · rw [other hm', if_pos (mem.2 (by omega))]
          exact Or.inl rfl
      · rintro (k2 | k2)
        · rw [other (by omega), if_pos (mem.2 (by omega))]
        · exact absurd k2 hl
    · intro k
      have k' : (f, p) ∉ (sig c.numF c.numP).take (m + 1) := fun e => absurd (mem'.1 e) (by omega)
      have k2 : (f, p) ∉ (sig c.numF c.numP).take m := fun e => absurd (mem.1 e) (by omega)
      rw [if_neg k', other (by omega), if_neg k2]
      exact ⟨rfl, rfl⟩

/-- C186. Signals that are missing at the end of the file are not noticed: for every circuit and every number `n` of signals, the file
without the lines after the first `n` signals is read without an error, with the right number of tones and harmonics and zero
voltages and impedances for the signals that are missing. -/
theorem C186_missing (T : FloatFormat) (c : IO.Circuit) (h : FileCircuit T c) {text : List Char} {full : IO.Circuit}
    (hs : save c = .ok text) (hf : read T text = .ok full) {n : ℕ} (hn : n ≤ c.numF * c.numP) :
    ∃ t c', t <+: text ∧ (n < c.numF * c.numP → t ≠ text) ∧ read T t = .ok c' ∧ c'.numF = c.numF ∧ c'.numP = c.numP ∧
      ∀ f p, 1 ≤ f → f ≤ c.numF → 1 ≤ p → p ≤ c.numP →
        ((f - 1) * c.numP + (p - 1) < n → entry c'.vt f p = entry full.vt f p ∧ entry c'.zt f p = entry full.zt f p) ∧
        (n ≤ (f - 1) * c.numP + (p - 1) →
          entry c'.vt f p = some (zeroFlt, zeroFlt) ∧ entry c'.zt f p = some (zeroFlt, zeroFlt)) := by
  obtain ⟨fq, v, z, hc, -, -, -⟩ := fileCircuit_mk h
  have hs' : save c = .ok (allLines c.numF c.numP fq v z).flatten := by
    conv_lhs => rw [hc]
    exact save_mk _ _ _ _ _
  rw [hs] at hs'
  cases hs'
  rw [read_save T h.tones h.harmonics fq v z] at hf
  cases hf
  refine ⟨((allLines c.numF c.numP fq v z).take (3 * n + 3)).flatten, part T c.numF c.numP fq v z ((sig c.numF c.numP).take n),
    ⟨((allLines c.numF c.numP fq v z).drop (3 * n + 3)).flatten, by rw [← List.flatten_append, List.take_append_drop]⟩, ?_, ?_, rfl,
    rfl, ?_⟩
  · intro hlt e
    have l1 : ((allLines c.numF c.numP fq v z).take (3 * n + 3)) = allLines c.numF c.numP fq v z := by
      have a := lines_cut (fun l hl => allLines_isLine _ _ _ _ _ l (List.mem_of_mem_take hl)) (w := []) (by simp)
        (L := (allLines c.numF c.numP fq v z).take (3 * n + 3))
      rw [List.append_nil, e, lines_all, if_pos rfl, List.append_nil] at a
      exact a.symm
    have := congrArg List.length l1
    rw [List.length_take, allLines_length] at this
    omega
  · exact read_whole T h.tones h.harmonics fq v z n
  · intro f p f1 f2 p1 p2
    have mem := mem_sig_take (m := n) f1 f2 p1 p2
    simp only [part, mk]
    rw [entry_map _ (by omega) (by omega), entry_map _ (by omega) (by omega), entry_map _ (by omega) (by omega),
      entry_map _ (by omega) (by omega)]
    constructor
    · intro k
      have k' := mem.2 k
      rw [if_pos k', if_pos k', if_pos ⟨f1, p1⟩, if_pos ⟨f1, p1⟩]
      exact ⟨rfl, rfl⟩
    · intro k
      have k' : (f, p) ∉ (sig c.numF c.numP).take n := fun e => absurd (mem.1 e) (by omega)
      rw [if_neg k', if_neg k']
      exact ⟨rfl, rfl⟩

/-- C186. Every file can be cut in the line of its last impedance so that it is read without an error, and the last impedance without
its imaginary part. -/
theorem C186_impedance (T : FloatFormat) (c : IO.Circuit) (h : FileCircuit T c) {text : List Char} {full : IO.Circuit}
    (hs : save c = .ok text) (hf : read T text = .ok full) :
    ∃ t c' x, t <+: text ∧ t ≠ text ∧ read T t = .ok c' ∧ c'.numF = c.numF ∧ c'.numP = c.numP ∧
      entry full.zt c.numF c.numP = some x ∧ entry c'.zt c.numF c.numP = some (x.1, zeroFlt) := by
  obtain ⟨fq, v, z, hc, -, -, -⟩ := fileCircuit_mk h
  have hs' : save c = .ok (allLines c.numF c.numP fq v z).flatten := by
    conv_lhs => rw [hc]
    exact save_mk _ _ _ _ _
  rw [hs] at hs'
  cases hs'
  rw [read_save T h.tones h.harmonics fq v z] at hf
  cases hf
  obtain ⟨t, c', zt, h1, h2, h3, h4, h5, h6, h7⟩ := read_real T h.tones h.harmonics fq v z
  refine ⟨t, c', rdc T 2 (z c.numF c.numP), h1, h2, h3, h4, h5, ?_, ?_⟩
  · simp only [mk]
    rw [entry_map _ (by omega) (by omega), if_pos ⟨h.tones.1, h.harmonics⟩]
  · simp only [part, mk] at h7
    rw [set2_map _ _ (by omega) (by omega)] at h7
    rw [← Except.ok.inj h7, entry_map _ (by omega) (by omega), Function.update_self, Function.update_self, h6]
    rfl

/-- The demonstration file meets the hypotheses: it has two signals, and the first one is all that is read of its first six lines. -/
example : ∃ text full t c', save fileDemo = .ok text ∧ read fixedFormat text = .ok full ∧ t <+: text ∧ t ≠ text ∧
    read fixedFormat t = .ok c' ∧ entry c'.vt 1 1 = entry full.vt 1 1 ∧ entry c'.zt 2 1 = some (zeroFlt, zeroFlt) := by
  obtain ⟨text, full, h1, h2, -⟩ := C09_read_back fixedFormat fileDemo fileDemo_ok
  obtain ⟨t, c', k1, k2, k3, k4, k5, k6⟩ := C186_missing fixedFormat fileDemo fileDemo_ok h1 h2 (n := 1) (by decide)
  exact ⟨text, full, t, c', h1, h2, k1, k2 (by decide), k3, ((k6 1 1 le_rfl (by decide) le_rfl le_rfl).1 (by decide)).1,
    ((k6 2 1 (by decide) le_rfl le_rfl le_rfl).2 (by decide)).2⟩

/-- C186 as claimed is false: a file that was cut off is read without an error, and the impedance of its last signal is wrong. -/
theorem C186_false : ∃ (T : FloatFormat) (c : IO.Circuit) (text t : List Char) (full c' : IO.Circuit), FileCircuit T c ∧
    save c = .ok text ∧ read T text = .ok full ∧ t <+: text ∧ t ≠ text ∧ read T t = .ok c' ∧
    entry c'.zt 2 1 ≠ entry full.zt 2 1 := by
  obtain ⟨text, full, h1, h2, -, -, -, h3, -⟩ := C09_read_back fixedFormat fileDemo fileDemo_ok
  obtain ⟨t, c', x, k1, k2, k3, -, -, k4, k5⟩ := C186_impedance fixedFormat fileDemo fileDemo_ok h1 h2
  refine ⟨fixedFormat, fileDemo, text, t, full, c', fileDemo_ok, h1, h2, k1, k2, k3, ?_⟩
  have k4' : entry full.zt 2 1 = some x := k4
  have k5' : entry c'.zt 2 1 = some (x.1, zeroFlt) := k5
  intro e
  rw [k4', k5'] at e
  obtain ⟨-, a, b, h4, h5, -, h6⟩ := h3 2 1 (by decide) le_rfl le_rfl le_rfl
  rw [k4'] at h5
  have hb : x = b := Option.some.inj h5
  have ha : a.2 = ⟨true, 1 / 8⟩ := by
    have : entry fileDemo.zt 2 1 = some ((⟨false, 5 / 8⟩, ⟨true, 1 / 8⟩) : Flt × Flt) := rfl
    rw [this] at h4
    rw [← Option.some.inj h4]
  have hx : x.2 = zeroFlt := (congrArg Prod.snd (Option.some.inj e)).symm
  have := h6.1
  rw [← hb, hx, ha] at this
  cases this

end QMix.Props
