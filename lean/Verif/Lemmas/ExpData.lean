import Verif.Model.ExpData
import Verif.Lemmas.Py
import Verif.Lemmas.NumPy
import Verif.Lemmas.Float

/-!
# Lemmas about `DCData` and `PumpedData`: memory, and the parts of a successful call
-/

namespace QMix.Exp

open QMix Np Fl IvData IfData Opt

theorem write_append (h : Heap) (d e : Dict) : write (h ++ [d]) h.length e = h ++ [e] := by
  simp [write]

theorem deref_append (h : Heap) (d : Dict) : deref (h ++ [d]) h.length = d := by
  simp [deref]

theorem deref_prefix {h h' : Heap} (hp : h <+: h') {a : ℕ} (ha : a < h.length) : deref h' a = deref h a := by
  obtain ⟨t, rfl⟩ := hp
  simp [deref, List.getElem?_append_left ha]

theorem deref_shared {h : Heap} (hh : h ≠ []) (d : Dict) : deref (h ++ [d]) sharedAt = deref h sharedAt :=
  deref_prefix (List.prefix_append _ _) (List.length_pos_of_ne_nil hh)

theorem mergeOptions_eq (h : Heap) (kw : Dict) :
    mergeOptions h kw = (h ++ [update (deref h sharedAt) kw], h.length) := by
  simp only [mergeOptions, alloc, deref_append, write_append]

theorem noClash_ok {kw : Dict} {names : List String} {u : Unit} :
    noClash kw names = .ok u ↔ ∀ k ∈ names, kw k = none := by
  unfold noClash
  split
  · rename_i h
    simp only [List.any_eq_true] at h
    obtain ⟨k, hk, h⟩ := h
    simp only [reduceCtorEq, false_iff, not_forall]
    exact ⟨k, hk, by rw [Option.isSome_iff_ne_none] at h; exact h⟩
  · rename_i h
    simp only [List.any_eq_true, not_exists, not_and, Option.isSome_iff_ne_none, ne_eq, not_not] at h
    simpa using h

/-- The parts of a successful `DCData(...)`. -/
theorem dcInit_parts {R : Routines} {S : RespFn.Splines} {params kw : Dict} {a : ℕ} {data : IfResp.Input}
    {dcif : Option IfResp.Input} {r : DCData} (h : dcInit R S params kw a data dcif = .ok r) :
    r.kwargs = a ∧ data ≠ .other ∧
    (∃ o, ivOpts params kw = .ok o ∧ dcivCurve R o data = .ok (r.voltage, r.current, r.dc)) ∧
    (∃ v area, kw "area" = some v ∧ asReal v = .ok area ∧ r.rna = r.dc.rn * area * 1e-12) ∧
    (∃ v, kw "vleak" = some v ∧ asReal v = .ok r.vleak) ∧ r.dc.vgap ≠ 0 ∧
    (∃ l y, interp [r.vleak / r.dc.vgap] r.voltage r.current = .ok l ∧ pyGet l 0 = .ok y ∧
      r.ileak = y * r.dc.igap) ∧
    r.q = Fl.fdiv (num r.dc.rsg) (num r.dc.rn) ∧ r.jc = Fl.fdiv (num r.dc.vgap) (num r.rna) ∧
    respFnFromIVData S r.voltage r.current (respOpts .none) = .ok r.resp ∧
    (∃ v, kw "v_smear" = some v ∧ respFnFromIVData S r.voltage r.current (respOpts v) = .ok r.respSmear) ∧
    kw "comment" = some r.comment ∧
    dcIf R params kw r.dc dcif = .ok r.ifs := by
  simp only [dcInit, bind_ok_iff, raiseIf_ok, item, getOpt_ok] at h
  obtain ⟨com, hcom, sm, hsm, vl, hvl, ar, har, vb, -, -, ho, -, -, o, hoo, c, hc, area, harea, vleak, hvleak,
    x, hx, l, hl, y, hy, resp, hresp, rs, hrs, ifs, hifs, e⟩ := h
  rw [pure_ok_iff] at e
  subst e
  unfold Np.fdiv at hx
  split at hx
  · cases hx
  · rename_i hg
    cases hx
    exact ⟨rfl, ho, ⟨o, hoo, hc⟩, ⟨ar, area, har, harea, rfl⟩, ⟨vl, hvl, hvleak⟩, hg, ⟨l, y, hl, hy, rfl⟩, rfl,
      rfl, hresp, ⟨sm, hsm, hrs⟩, hcom, hifs⟩

/-- The parts of a successful `PumpedData(...)`. -/
theorem pumpedInit_parts {R : Routines} {params kw : Dict} {a : ℕ} {data : IfResp.Input} {d : DCData}
    {hot cold : Option IfResp.Input} {r : PumpedData}
    (h : pumpedInit R params kw a data d hot cold = .ok r) :
    r.kwargs = a ∧ r.dc = d.dc ∧
    (∃ v, kw "freq" = some v ∧ asReal v = .ok r.freq) ∧ d.dc.fgap ≠ 0 ∧
    r.vph = r.freq / d.dc.fgap * 1e9 ∧
    (∃ o, ivOpts params kw = .ok o ∧ ivCurve R o data d.dc = .ok (r.voltage, r.current)) ∧
    finiteOrNone (MathFn.slopeSpanN r.current r.voltage 21 true) = .ok r.rdyn ∧
    pumpedZemb params kw d r.vph r.voltage r.current = .ok r.zemb ∧
    pumpedIfs R params kw d r.voltage r.current hot cold = .ok r.ifs := by
  simp only [pumpedInit, bind_ok_iff, item, getOpt_ok] at h
  obtain ⟨f, hf, fr, hfr, x, hx, -, -, o, ho, c, hc, rd, hrd, z, hz, i, hi, e⟩ := h
  rw [pure_ok_iff] at e
  subst e
  unfold Np.fdiv at hx
  split at hx
  · cases hx
  · rename_i hg
    cases hx
    exact ⟨rfl, rfl, ⟨f, hf, hfr⟩, hg, rfl, ⟨o, ho, hc⟩, hrd, hz, hi⟩

end QMix.Exp
