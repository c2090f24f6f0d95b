import Verif.Props.MethodsAccept
import Verif.Props.MethodsRed

/-!
# C62 and C81: the formulas of the reductions of programs whose sizes are compatible are accepted

With weights and batch dimensions, for all the reductions.
-/

namespace Verif.Lazy

open Alias (Str)
open Spec (LExpr LTree PyE PyRed rowsOut rowsRed)
open Parse

/-- The formula of a reduction obeys the rules if those of the lazy tensor and of the weight do. -/
theorem finish_ok {q : Prop} {r : PyRed} {t u : Term} {k : RedCls × Term} (h : finish r t u = some k) (ht : TOk q t)
    (hu : r.weight ≠ none → TOk q u) : TOk q k.2 := by
  have hc : ∀ {f g : Term} {k}, shiftExp f g = some k → TOk q f → TOk q g → TOk q k.2 := by
    intro f g k h hf hg
    simp only [shiftExp, Option.ite_none_left_eq_some, Option.some.injEq] at h
    obtain ⟨-, rfl⟩ := h
    exact ⟨⟨hf.1, hg.1, trivial⟩, fun hq => ⟨hf.2 hq, hg.2 hq, fun h => by cases h⟩⟩
  have h1 : TOk q (.int 1) := ⟨trivial, fun _ => trivial⟩
  cases r with
  | kmin K | argkmin K | kminArgkmin K =>
    simp only [finish, Option.ite_none_left_eq_some, Option.some.injEq] at h
    obtain ⟨-, rfl⟩ := h
    exact ht
  | logsumexp => exact hc h ht h1
  | logsumexpW w => exact hc h ht (hu (by simp [PyRed.weight]))
  | sumsoftmaxweight w =>
    obtain ⟨a, b⟩ := hu (by simp [PyRed.weight])
    exact hc h ht ⟨⟨trivial, a, trivial⟩, fun hq => ⟨trivial, b hq, fun h => by cases h⟩⟩
  | _ =>
    obtain rfl := Option.some.inj h
    exact ht

/-- The formula of a reduction obeys the rules on dimensions. -/
theorem redCall_ok {q : Prop} {r : PyRed} {p : PyE} (hp : ProperRed r p) {B : List Nat} (hB : 0 ∉ B) {m n : Nat}
    (h : p.Fits B m n) (hw : ∀ w, r.weight = some w → w.Fits B m n) (hq : q → p.NoFraction)
    (hqw : q → ∀ w, r.weight = some w → w.NoFraction) {axis : Nat} {c : RedCall} (hc : redCall r p axis = some c) :
    TOk q c.f := by
  simp only [redCall, Option.bind_eq_some_iff] at hc
  obtain ⟨v, hr, hc⟩ := hc
  cases v with
  | lazy e =>
    simp only [Option.bind_eq_some_iff] at hc
    obtain ⟨L, hL, W, hW, hc⟩ := hc
    have ha : Agr q e p.dim := agr_of_fits hB h hp.self.pos hp.self.zero hp.self.args hp.self.fresh hq hr
    obtain ⟨hsem, -, -, -⟩ := good_of_run hr hp.self.pos hp.self.zero hp.self.args hp.self.fresh
    obtain ⟨-, hsy⟩ := hsem.ndim L hL
    split at hc
    · cases hc
    simp only [Option.bind_eq_some_iff, Option.map_eq_some_iff] at hc
    obtain ⟨x, hx, s, hs, k, hk, z, hz, rfl⟩ := hc
    have main : ∀ {t u : Term}, (∀ cat : Nat, ((preprocessText (redName r) x.2.1).bind fun n =>
        (parseRed (genredText n.1 x.1 (redOpt r) cat n.2)).bind fun c => construct c.1 c.2) =
        (finish r t u).map fun k => (k.1, k.2, (cat : Int))) → TOk q t → (r.weight ≠ none → TOk q u) → TOk q z.2.1 := by
      intro t u h5 ht hu
      have h5 := h5 (axis2cat (axis - L.nbatchdims))
      simp only [hs, Option.bind_some, hk, hz] at h5
      cases hf : finish r t u with
      | none => rw [hf] at h5; cases h5
      | some f =>
        rw [hf, Option.map_some, Option.some.injEq] at h5
        subst h5
        exact finish_ok hf ht hu
    have one : ∀ {T : LTree Nat}, (∀ p d c d' c', (p, d, c) ∈ T.leaves → (p, d', c') ∈ T.leaves → d = d' ∧ c = c') →
        OneVar T := by
      rintro T hs ⟨a, d, c⟩ hl ⟨a', d', c'⟩ hl' e
      obtain rfl : a = a' := e
      obtain ⟨rfl, rfl⟩ := hs a d c d' c' hl hl'
      rfl
    cases hwr : r.weight with
    | none =>
      simp only [weightOf, hwr, Option.some.injEq] at hW
      subst hW
      obtain ⟨hd, hid⟩ := hp.self.ids e L hr hL
      obtain ⟨T, vars, h1, h2, -⟩ := C26_aliases e hsem.ok L hL hsy hd hid
      obtain rfl := Option.some.inj (hx.symm.trans h1)
      have hdata : T.map (fun p => (vars.map argOf)[p]?.map Spec.Arg.src) = e.tree.map some := by
        simpa using h2.data
      have hsi : ∀ p d c d' c', (p, d, c) ∈ T.leaves → (p, d', c') ∈ T.leaves → d = d' ∧ c = c' := by
        simpa using h2.single
      obtain ⟨t, ht, -, hok⟩ := ha _ T (one hsi) hdata
      exact main (fun cat => build_plain ht r hwr cat) hok fun h => (h hwr).elim
    | some w =>
      simp only [weightOf, hwr, Option.bind_eq_some_iff] at hW
      obtain ⟨v, hv, hW⟩ := hW
      obtain ⟨w1, w2, w3, w4⟩ := hp.weight w hwr
      obtain ⟨hsem', -, -, -⟩ := good_of_run hv w1 w2 w3 w4
      have ha' : Agr q v.toLazy w.dim := agr_of_fits hB (hw w hwr) w1 w2 w3 w4 (fun h => hqw h w hwr) hv
      cases v with
      | lazy e' =>
        simp only [Option.map_eq_some_iff] at hW
        obtain ⟨W', hW', rfl⟩ := hW
        obtain ⟨-, hsy'⟩ := hsem'.ndim W' hW'
        obtain ⟨hd, hid⟩ := hp.ids w e e' L W' hwr hr hv hL hW'
        obtain ⟨R, hR, -⟩ := Option.bind_eq_some_iff.1 (show (join L W').bind _ = some x from hx)
        have hi : newIndex R.symb = 0 := by
          rw [(join_tensors hR).2, hsy, hsy']
          rfl
        have hpos : (fun x => newIndex R.symb + x) = (id : Nat → Nat) := by
          funext x
          rw [hi, Nat.zero_add]
          rfl
        obtain ⟨T, T', vars, h1, h2, -⟩ := C26_weights e e' hsem.ok hsem'.ok L W' R hL hW' hR hd (by
          rw [hi, Nat.zero_add]
          exact hid)
        rw [hpos] at h1
        obtain rfl := Option.some.inj (hx.symm.trans h1)
        have hboth := h2.data
        simp only [List.map_cons, List.map_nil, List.cons.injEq, and_true] at hboth
        obtain ⟨hdata, hdata'⟩ := hboth
        have hsi : ∀ p d c d' c', (p, d, c) ∈ T.leaves ++ T'.leaves → (p, d', c') ∈ T.leaves ++ T'.leaves →
            d = d' ∧ c = c' := by
          simpa using h2.single
        obtain ⟨t, ht, -, hok⟩ := ha _ T (one fun p d c d' c' g g' =>
          hsi p d c d' c' (List.mem_append_left _ g) (List.mem_append_left _ g')) hdata
        obtain ⟨u, hu, -, hok'⟩ := ha' _ T' (one fun p d c d' c' g g' =>
          hsi p d c d' c' (List.mem_append_right _ g) (List.mem_append_right _ g')) hdata'
        exact main (fun cat => build_weight ht hu r (by rw [hwr]; simp) cat) hok fun _ => hok'
      | _ => cases hW
  | _ => cases hc

/-- The formula of a reduction is defined where the lazy tensor and the weight are. -/
theorem redCall_def {r : PyRed} {p : PyE} (hp : ProperRed r p) {a : Nat} {c : RedCall}
    (h : redCall r p (nbatch p + a) = some c) {data : Data} {i j : Nat} (hh : p.Holds data) (hd : p.Def data i j)
    (hw : ∀ w, r.weight = some w → w.Holds data ∧ w.Def data i j) : c.f.Pos ∧ ∃ env, c.f.Def env := by
  obtain ⟨-, ls, t, u, hin⟩ := red_inside hp h
  have hb := hin.built
  have plain : c.f = t → c.f.Pos ∧ ∃ env, c.f.Def env := fun e => by
    rw [e]
    exact ⟨hin.self.pos, _, (hin.self.sem data i j ⟨hh, hd⟩).1⟩
  have conc : ∀ {v : Term} {d V D}, TermOf ls c.srcs v d V D → D data i j → shiftExp t v = some (c.cls, c.f) →
      c.f.Pos ∧ ∃ env, c.f.Def env := fun {v d V D} hv hD e => by
    simp only [shiftExp, Option.ite_none_left_eq_some, Option.some.injEq, Prod.mk.injEq] at e
    rw [← e.2.2]
    have := hin.self.concat hv
    exact ⟨this.pos, _, (this.sem data i j ⟨⟨hh, hd⟩, hD⟩).1⟩
  cases r with
  | kmin K | argkmin K | kminArgkmin K =>
    simp only [finish, Option.ite_none_left_eq_some, Option.some.injEq, Prod.mk.injEq] at hb
    exact plain hb.2.2.symm
  | logsumexp => exact conc (TermOf.int ls c.srcs 1) trivial hb
  | logsumexpW w => exact conc (hin.weight w rfl) (hw w rfl) hb
  | sumsoftmaxweight w => exact conc ((TermOf.int ls c.srcs 1).concat (hin.weight w rfl)) ⟨trivial, hw w rfl⟩ hb
  | _ =>
    simp only [finish, Option.some.injEq, Prod.mk.injEq] at hb
    exact plain hb.2.symm

/-- **C81**, for all the reductions of lazy tensors, with weights and batch dimensions: if the sizes are compatible, if the
values are defined for some contents of the arrays, and if one divides only by parameters and by programs whose value is
not a constant, the reduction calls a routine whose formula is accepted. -/
theorem C81_reductions {r : PyRed} {p : PyE} (hp : ProperRed r p) (hl : p.IsLazy) {B : List Nat} (hB : 0 ∉ B) {m n : Nat}
    (h : p.Fits B m n) (hf : p.NoFraction) (hw : ∀ w, r.weight = some w → w.IsLazy ∧ w.Fits B m n ∧ w.NoFraction)
    {data : Data} {i j : Nat} (hh : p.Holds data) (hd : p.Def data i j)
    (hwd : ∀ w, r.weight = some w → w.Holds data ∧ w.Def data i j) {a : Nat} (ha : a < 2) (hs : r = .sum → p.dim ≤ 100)
    (hK : ∀ K, r = .kmin K ∨ r = .argkmin K ∨ r = .kminArgkmin K → 0 < K)
    (h1 : r = .logsumexp ∨ r.weight ≠ none → p.dim = 1) :
    ∃ c, redCall r p (nbatch p + a) = some c ∧ c.f.Accepted ∧ ∃ ex, Runs c.f ex := by
  obtain ⟨c, hc⟩ := C62_total hp hl hB h (fun w e => ⟨(hw w e).1, (hw w e).2.1⟩) ha hs hK h1
  obtain ⟨hpos, env, henv⟩ := redCall_def hp hc hh hd hwd
  have hok := redCall_ok (q := True) hp hB h (fun w e => (hw w e).2.1) (fun _ => hf) (fun _ w e => (hw w e).2.2) hc
  have hacc := C81_accept hpos hok.1 (hok.2 trivial) henv
  refine ⟨c, hc, hacc, ?_⟩
  obtain ⟨n, e, he, -⟩ := hacc
  exact ⟨e, n, e, he, .inl rfl⟩

/-- **C81**, for all the reductions, with divisions by integers: the only exception that may be raised is the
`AttributeError` of the sum, or of the difference, of a fraction and an integer. Missing: the formula is accepted (see
`not_C81_lazy`). -/
theorem C81_reductions_partial {r : PyRed} {p : PyE} (hp : ProperRed r p) (hl : p.IsLazy) {B : List Nat} (hB : 0 ∉ B)
    {m n : Nat} (h : p.Fits B m n) (hw : ∀ w, r.weight = some w → w.IsLazy ∧ w.Fits B m n) {data : Data} {i j : Nat}
    (hh : p.Holds data) (hd : p.Def data i j) (hwd : ∀ w, r.weight = some w → w.Holds data ∧ w.Def data i j) {a : Nat}
    (ha : a < 2) (hs : r = .sum → p.dim ≤ 100) (hK : ∀ K, r = .kmin K ∨ r = .argkmin K ∨ r = .kminArgkmin K → 0 < K)
    (h1 : r = .logsumexp ∨ r.weight ≠ none → p.dim = 1) :
    ∃ c, redCall r p (nbatch p + a) = some c ∧ (c.f.Accepted ∨ c.f.Raised .attribute) := by
  obtain ⟨c, hc⟩ := C62_total hp hl hB h hw ha hs hK h1
  obtain ⟨hpos, env, henv⟩ := redCall_def hp hc hh hd hwd
  have hok := redCall_ok (q := False) hp hB h (fun w e => (hw w e).2) (fun h => h.elim) (fun h => h.elim) hc
  exact ⟨c, hc, C81_partial hpos hok.1 henv⟩

/-- The theorem applies to an attention layer, `(-((x_i - y_j)**2).sum(-1)).sumsoftmaxweight(b_j, axis=1)`. -/
example : ∃ c, redCall (.sumsoftmaxweight exVals) exScore (nbatch exScore + 1) = some c ∧ c.f.Accepted ∧ ∃ ex, Runs c.f ex := by
  have h : Spec.Alike [3, 3] := ⟨3, by simp⟩
  refine C81_reductions (B := []) (m := 5) (n := 7) (data := fun _ _ => 0) (i := 0) (j := 0) exSoftmax_proper trivial (by simp)
    ?_ (by simp [exScore, PyE.NoFraction]) ?_ (by simp [exScore, PyE.Holds])
    (by simp [exScore, PyE.Def, Spec.PyM1.Def, Spec.PyOp.Def]) ?_ (by decide) (fun h => by cases h)
    (fun K h => by simp at h) (fun _ => rfl)
  · simp [exScore, PyE.Fits, PyE.IsLazy, Spec.FitsShape, Spec.PyOp.Fits, Spec.PyM2.Fits, PyE.dim, PyE.IsExponent, h]
  · rintro w ⟨⟩
    exact ⟨trivial, ⟨2, rfl⟩, by simp [exVals, PyE.NoFraction]⟩
  · rintro w ⟨⟩
    simp [exVals, PyE.Holds, PyE.Def]

end Verif.Lazy
