import Mathlib.Tactic.Ring
import Mathlib.Data.List.Induction
import Verif.Spec.Batch
import Verif.Proofs.Ranges

/-! Batched calls: index computations. -/

namespace Verif

open Spec (ravel bcast blockRows BatchShapes batchArgs EvLocal WfVars)

variable {V : Type}

/-- Product of the last `t` dimensions among `nb`. -/
def tailProd (nb : Nat) (dims : Nat → Nat) : Nat → Nat
  | 0 => 1
  | t + 1 => tailProd nb dims t * dims (nb - t - 1)

/-- Contribution of the last `t` indices. -/
def tailVal (nb : Nat) (dims idx : Nat → Nat) : Nat → Nat
  | 0 => 0
  | t + 1 => tailVal nb dims idx t + idx (nb - t - 1) * tailProd nb dims t

theorem ravel_split (nb : Nat) (dims idx : Nat → Nat) :
    ∀ t ≤ nb, ravel nb dims idx = ravel (nb - t) dims idx * tailProd nb dims t +
      tailVal nb dims idx t := by
  intro t
  induction t with
  | zero => intro _; simp [tailProd, tailVal]
  | succ t ih =>
    intro ht
    rw [ih (by omega)]
    obtain ⟨m, hm⟩ : ∃ m, nb - t = m + 1 := ⟨nb - t - 1, by omega⟩
    have hm' : nb - (t + 1) = m := by omega
    rw [hm, hm', tailProd, tailVal, show nb - t - 1 = m by omega, ravel]
    ring

theorem ravel_eq_tailVal (nb : Nat) (dims idx : Nat → Nat) :
    ravel nb dims idx = tailVal nb dims idx nb := by
  rw [ravel_split nb dims idx nb le_rfl, Nat.sub_self]
  simp [ravel]

theorem tailVal_lt (nb : Nat) (dims idx : Nat → Nat) (h : ∀ b < nb, idx b < dims b) :
    ∀ t ≤ nb, tailVal nb dims idx t < tailProd nb dims t := by
  intro t
  induction t with
  | zero => intro _; simp [tailProd, tailVal]
  | succ t ih =>
    intro ht
    have h1 := ih (by omega)
    have h2 := h (nb - t - 1) (by omega)
    simp only [tailProd, tailVal]
    have h3 : (idx (nb - t - 1) + 1) * tailProd nb dims t ≤ dims (nb - t - 1) * tailProd nb dims t :=
      Nat.mul_le_mul_right _ h2
    rw [Nat.add_mul, Nat.one_mul] at h3
    rw [Nat.mul_comm (tailProd nb dims t)]
    omega

theorem ravel_digit (nb : Nat) (dims idx : Nat → Nat) (h : ∀ b < nb, idx b < dims b) {t : Nat}
    (ht : t < nb) :
    ravel nb dims idx / tailProd nb dims t % dims (nb - t - 1) = idx (nb - t - 1) := by
  have hlt := tailVal_lt nb dims idx h t (by omega)
  rw [ravel_split nb dims idx t (by omega)]
  obtain ⟨m, hm⟩ : ∃ m, nb - t = m + 1 := ⟨nb - t - 1, by omega⟩
  have hpos : 0 < tailProd nb dims t := by omega
  rw [Nat.mul_comm, Nat.mul_add_div hpos, Nat.div_eq_of_lt hlt, Nat.add_zero]
  rw [show nb - t - 1 = m by omega, hm, ravel, Nat.mul_comm, Nat.mul_add_mod]
  exact Nat.mod_eq_of_lt (h m (by omega))

theorem ravel_lt (nb : Nat) (dims idx : Nat → Nat) (h : ∀ b < nb, idx b < dims b) :
    ravel nb dims idx < tailProd nb dims nb := by
  rw [ravel_eq_tailVal]; exact tailVal_lt nb dims idx h nb le_rfl

theorem ravel_congr {nb : Nat} {d d' i i' : Nat → Nat} (hd : ∀ b < nb, d b = d' b)
    (hi : ∀ b < nb, i b = i' b) : ravel nb d i = ravel nb d' i' := by
  induction nb with
  | zero => rfl
  | succ n ih =>
    simp only [ravel]
    rw [ih (fun b hb => hd b (by omega)) (fun b hb => hi b (by omega)), hd n (by omega), hi n (by omega)]

/-- `broadcast_index` at the first row of batch `idx`: first row of the corresponding block. -/
theorem broadcastIndexLong_eq (nb : Nat) (full shape : Mem Nat) (idx : Nat → Nat)
    (hidx : ∀ b < nb, idx b < full b) (hsh : ∀ b < nb, shape b = 1 ∨ shape b = full b) :
    broadcastIndexLong (ravel nb full idx * shape nb) nb full shape =
      ravel nb shape (bcast shape idx) * shape nb := by
  unfold broadcastIndexLong
  simp only
  rw [Nat.mul_mod_left]
  have key := forRange_inv (P := fun t (s : Nat × Nat × Nat) => t ≤ nb →
      s = (tailVal nb shape (bcast shape idx) t * shape nb, shape nb * tailProd nb shape t,
        shape nb * tailProd nb full t)) nb
    (fun t (s : Nat × Nat × Nat) =>
      (if shape (nb - t - 1) ≠ 1 then
        s.1 + ((ravel nb full idx * shape nb / s.2.2) % shape (nb - t - 1)) * s.2.1 else s.1,
       s.2.1 * shape (nb - t - 1), s.2.2 * full (nb - t - 1)))
    (0, shape nb, shape nb) (by intro _; simp [tailVal, tailProd]) ?_
  · rw [key le_rfl, ravel_eq_tailVal]
  · intro t s ht hs _
    rw [hs (by omega)]
    simp only [tailVal, tailProd, Prod.mk.injEq]
    refine ⟨?_, by ring, by ring⟩
    by_cases h1 : shape (nb - t - 1) = 1
    · rw [if_neg (by simpa using h1)]
      simp [bcast, h1]
    · rw [if_pos h1]
      have e : shape (nb - t - 1) = full (nb - t - 1) := (hsh _ (by omega)).resolve_left h1
      have hb : bcast shape idx (nb - t - 1) = idx (nb - t - 1) := by simp [bcast, h1]
      rw [hb]
      by_cases h0 : shape nb = 0
      · simp [h0]
      · rw [Nat.mul_comm (ravel nb full idx), Nat.mul_div_mul_left _ _ (Nat.pos_of_ne_zero h0), e,
          ravel_digit nb full idx hidx ht]
        ring

/-! ### The table of shapes -/

theorem bbd_spec (nb : Nat) (argshapes : List (List Nat)) (a : Nat) (shapes : Mem Nat) :
    (∀ b < nb, broadcastBatchDims nb argshapes a shapes ((a + 1) * (nb + 3) + b) =
      argShape argshapes a b) ∧
    (∀ b < nb, broadcastBatchDims nb argshapes a shapes b =
      if argShape argshapes a b ≠ 1 ∧ shapes b = 1 then argShape argshapes a b else shapes b) ∧
    (∀ p, nb ≤ p → ¬ ((a + 1) * (nb + 3) ≤ p ∧ p < (a + 1) * (nb + 3) + nb) →
      broadcastBatchDims nb argshapes a shapes p = shapes p) := by
  unfold broadcastBatchDims
  simp only
  have hoff : nb + 3 ≤ (a + 1) * (nb + 3) := Nat.le_mul_of_pos_left _ (by omega)
  generalize (a + 1) * (nb + 3) = off at hoff
  have key := forRange_inv (P := fun t (s : Mem Nat) =>
      (∀ b < nb, s (off + b) = if b < t then argShape argshapes a b else shapes (off + b)) ∧
      (∀ b < nb, s b = if b < t ∧ argShape argshapes a b ≠ 1 ∧ shapes b = 1 then argShape argshapes a b
        else shapes b) ∧
      (∀ p, nb ≤ p → ¬ (off ≤ p ∧ p < off + nb) → s p = shapes p)) nb
    (fun b s =>
      if (s.set (off + b) (argShape argshapes a b)) (off + b) ≠ 1 then
        if (s.set (off + b) (argShape argshapes a b)) b = 1 then
          (s.set (off + b) (argShape argshapes a b)).set b
            ((s.set (off + b) (argShape argshapes a b)) (off + b))
        else s.set (off + b) (argShape argshapes a b)
      else s.set (off + b) (argShape argshapes a b)) shapes (by simp) ?_
  · obtain ⟨k1, k2, k3⟩ := key
    refine ⟨fun b hb => by rw [k1 b hb, if_pos hb], fun b hb => ?_, k3⟩
    rw [k2 b hb]
    simp [hb]
  · rintro t s ht ⟨k1, k2, k3⟩
    have hs : s t = shapes t := by rw [k2 t ht, if_neg (by omega)]
    have e1 : (s.set (off + t) (argShape argshapes a t)) (off + t) = argShape argshapes a t := by
      simp [Mem.set]
    have e2 : (s.set (off + t) (argShape argshapes a t)) t = shapes t := by
      simp only [Mem.set]; rw [if_neg (by omega), hs]
    rw [e1, e2]
    have base : ∀ p, (if argShape argshapes a t ≠ 1 then if shapes t = 1 then
          (s.set (off + t) (argShape argshapes a t)).set t (argShape argshapes a t)
        else s.set (off + t) (argShape argshapes a t)
      else s.set (off + t) (argShape argshapes a t)) p =
      if p = t then (if argShape argshapes a t ≠ 1 ∧ shapes t = 1 then argShape argshapes a t
        else shapes t)
      else if p = off + t then argShape argshapes a t else s p := by
      intro p
      by_cases h1 : argShape argshapes a t ≠ 1 <;> by_cases h2 : shapes t = 1 <;>
        by_cases h3 : p = t <;> simp only [h1, h2, h3, Mem.set, if_true, if_false, and_true, and_false,
          not_true_eq_false, not_false_eq_true, ne_eq, true_and, false_and] <;>
        first
          | rfl
          | (rw [if_neg (by omega), hs]; try exact h2)
    refine ⟨fun b hb => ?_, fun b hb => ?_, fun p hp hn => ?_⟩
    · rw [base, if_neg (by omega)]
      by_cases h : b = t
      · subst h; simp
      · rw [if_neg (by omega), k1 b hb]
        by_cases hbt : b < t
        · rw [if_pos hbt, if_pos (by omega)]
        · rw [if_neg hbt, if_neg (by omega)]
    · rw [base]
      by_cases h : b = t
      · subst h; simp
      · rw [if_neg h, if_neg (by omega), k2 b hb]
        have : (b < t + 1) = (b < t) := by apply propext; omega
        simp only [this]
    · rw [base, if_neg (by omega), if_neg (by omega), k3 p hp hn]

/-- One step of `check_ranges` for a variable of category `c` at position `a`. -/
def fillC (nb : Nat) (argshapes : List (List Nat)) (shapes : Mem Nat) (x : Nat × Nat) : Mem Nat :=
  if x.1 = 0 then fillI nb argshapes shapes x.2
  else if x.1 = 1 then fillJ nb argshapes shapes x.2 else fillP nb argshapes shapes x.2

theorem fillC_spec (nb : Nat) (argshapes : List (List Nat)) (shapes : Mem Nat) (x : Nat × Nat) :
    (∀ b < nb, fillC nb argshapes shapes x ((x.2 + 1) * (nb + 3) + b) = argShape argshapes x.2 b) ∧
    (x.1 < 2 → fillC nb argshapes shapes x ((x.2 + 1) * (nb + 3) + nb + x.1) =
      argShape argshapes x.2 nb) ∧
    (∀ b < nb, fillC nb argshapes shapes x b =
      if argShape argshapes x.2 b ≠ 1 ∧ shapes b = 1 then argShape argshapes x.2 b else shapes b) ∧
    (∀ p, nb ≤ p → ¬ ((x.2 + 1) * (nb + 3) ≤ p ∧ p < (x.2 + 1) * (nb + 3) + (nb + 3)) →
      fillC nb argshapes shapes x p = shapes p) := by
  obtain ⟨c, a⟩ := x
  obtain ⟨k1, k2, k3⟩ := bbd_spec nb argshapes a shapes
  have hoff : nb + 3 ≤ (a + 1) * (nb + 3) := Nat.le_mul_of_pos_left _ (by omega)
  unfold fillC fillI fillJ fillP
  simp only
  generalize (a + 1) * (nb + 3) = off at *
  by_cases h0 : c = 0
  · subst h0
    simp only [if_true, Mem.set]
    refine ⟨fun b hb => ?_, fun _ => ?_, fun b hb => ?_, fun p hp hn => ?_⟩
    · rw [if_neg (by omega), if_neg (by omega), k1 b hb]
    · rw [if_neg (by omega), if_pos (by omega)]
    · rw [if_neg (by omega), if_neg (by omega), k2 b hb]
    · rw [if_neg (by omega), if_neg (by omega), k3 p hp (by omega)]
  · rw [if_neg h0]
    by_cases h1 : c = 1
    · subst h1
      simp only [if_true, Mem.set]
      refine ⟨fun b hb => ?_, fun _ => ?_, fun b hb => ?_, fun p hp hn => ?_⟩
      · rw [if_neg (by omega), if_neg (by omega), k1 b hb]
      · rw [if_neg (by omega)]
      · rw [if_neg (by omega), if_neg (by omega), k2 b hb]
      · rw [if_neg (by omega), if_neg (by omega), k3 p hp (by omega)]
    · rw [if_neg h1]
      simp only [Mem.set]
      refine ⟨fun b hb => ?_, fun h => by omega, fun b hb => ?_, fun p hp hn => ?_⟩
      · rw [if_neg (by omega), k1 b hb]
      · rw [if_neg (by omega), k2 b hb]
      · rw [if_neg (by omega), k3 p hp (by omega)]

theorem line_disjoint {nb a a' q q' : Nat} (h : a ≠ a') (hq : q < nb + 3) (hq' : q' < nb + 3) :
    (a + 1) * (nb + 3) + q ≠ (a' + 1) * (nb + 3) + q' := by
  intro he
  rcases Nat.lt_or_gt_of_ne h with h | h
  · have := Nat.mul_le_mul_right (nb + 3) (show a + 1 + 1 ≤ a' + 1 by omega)
    rw [Nat.succ_mul (a + 1)] at this; omega
  · have := Nat.mul_le_mul_right (nb + 3) (show a' + 1 + 1 ≤ a + 1 by omega)
    rw [Nat.succ_mul (a' + 1)] at this; omega

theorem fillC_foldl (nb : Nat) (argshapes : List (List Nat)) (full : Nat → Nat) (s0 : Mem Nat)
    (h0 : ∀ b < nb, s0 b = 1) (L : List (Nat × Nat)) (hnd : (L.map (·.2)).Nodup)
    (hb : ∀ x ∈ L, ∀ b < nb, argShape argshapes x.2 b = 1 ∨ argShape argshapes x.2 b = full b) :
    (∀ x ∈ L, ∀ b < nb, L.foldl (fillC nb argshapes) s0 ((x.2 + 1) * (nb + 3) + b) =
      argShape argshapes x.2 b) ∧
    (∀ x ∈ L, x.1 < 2 → L.foldl (fillC nb argshapes) s0 ((x.2 + 1) * (nb + 3) + nb + x.1) =
      argShape argshapes x.2 nb) ∧
    (∀ b < nb, (L.foldl (fillC nb argshapes) s0 b = 1 ∧ ∀ x ∈ L, argShape argshapes x.2 b = 1) ∨
      L.foldl (fillC nb argshapes) s0 b = full b) ∧
    (∀ p, nb ≤ p → p < nb + 3 → L.foldl (fillC nb argshapes) s0 p = s0 p) := by
  induction L using List.reverseRecOn with
  | nil => exact ⟨by simp, by simp, fun b hb => Or.inl ⟨by simpa using h0 b hb, by simp⟩, by simp⟩
  | append_singleton L y ih =>
    rw [List.map_append, List.nodup_append] at hnd
    obtain ⟨k1, k2, k3, k4⟩ := ih hnd.1 (fun x hx => hb x (by simp [hx]))
    simp only [List.foldl_append, List.foldl_cons, List.foldl_nil]
    obtain ⟨f1, f2, f3, f4⟩ := fillC_spec nb argshapes (L.foldl (fillC nb argshapes) s0) y
    have hne : ∀ x ∈ L, x.2 ≠ y.2 := fun x hx =>
      hnd.2.2 x.2 (List.mem_map.mpr ⟨x, hx, rfl⟩) y.2 (by simp)
    have hoff : ∀ a, nb + 3 ≤ (a + 1) * (nb + 3) := fun a => Nat.le_mul_of_pos_left _ (by omega)
    have hout : ∀ x ∈ L, ∀ q < nb + 3, ¬ ((y.2 + 1) * (nb + 3) ≤ (x.2 + 1) * (nb + 3) + q ∧
        (x.2 + 1) * (nb + 3) + q < (y.2 + 1) * (nb + 3) + (nb + 3)) := by
      rintro x hx q hq ⟨g1, g2⟩
      exact line_disjoint (hne x hx) hq
        (show (x.2 + 1) * (nb + 3) + q - (y.2 + 1) * (nb + 3) < nb + 3 by omega) (by omega)
    refine ⟨?_, ?_, ?_, ?_⟩
    · intro x hx b hb'
      rcases List.mem_append.mp hx with hx | hx
      · rw [f4 _ (by have := hoff x.2; omega) (hout x hx b (by omega)), k1 x hx b hb']
      · rw [List.mem_singleton.mp hx]; exact f1 b hb'
    · intro x hx hc
      rcases List.mem_append.mp hx with hx | hx
      · have := hout x hx (nb + x.1) (by omega)
        rw [Nat.add_assoc, f4 _ (by have := hoff x.2; omega) this, ← Nat.add_assoc, k2 x hx hc]
      · rw [List.mem_singleton.mp hx] at hc ⊢; exact f2 hc
    · intro b hb'
      rw [f3 b hb']
      have hy := hb y (by simp) b hb'
      rcases k3 b hb' with ⟨e, hall⟩ | e
      · by_cases hy1 : argShape argshapes y.2 b = 1
        · left
          rw [if_neg (by simp [hy1])]
          refine ⟨e, fun x hx => ?_⟩
          rcases List.mem_append.mp hx with hx | hx
          · exact hall x hx
          · rw [List.mem_singleton.mp hx]; exact hy1
        · right
          rw [if_pos ⟨hy1, e⟩]
          exact hy.resolve_left hy1
      · right
        split
        · next h => exact hy.resolve_left h.1
        · exact e
    · intro p hp hp'
      rw [f4 p hp (by have := hoff y.2; omega), k4 p hp hp']

/-- Positions of the variables of category `c`, in the order of the variable list. -/
def indsOf (vars : List VarInfo) (c : Nat) : List Nat := (varsOf vars c).map (·.ind)

/-- The list of steps of `check_ranges`. -/
def steps (vars : List VarInfo) : List (Nat × Nat) :=
  (indsOf vars 0).map (fun a => (0, a)) ++ (indsOf vars 1).map (fun a => (1, a)) ++
    (indsOf vars 2).map (fun a => (2, a))

theorem mem_steps {vars : List VarInfo} (hw : WfVars vars) {x : Nat × Nat} :
    x ∈ steps vars ↔ ∃ v ∈ vars, x = (v.cat, v.ind) := by
  simp only [steps, indsOf, varsOf, List.mem_append, List.mem_map, List.mem_filter,
    decide_eq_true_eq]
  constructor
  · rintro ((⟨a, ⟨v, ⟨hv, hc⟩, rfl⟩, rfl⟩ | ⟨a, ⟨v, ⟨hv, hc⟩, rfl⟩, rfl⟩) |
      ⟨a, ⟨v, ⟨hv, hc⟩, rfl⟩, rfl⟩) <;> exact ⟨v, hv, by rw [hc]⟩
  · rintro ⟨v, hv, rfl⟩
    have := hw.cat v hv
    have h3 : v.cat = 0 ∨ v.cat = 1 ∨ v.cat = 2 := by omega
    rcases h3 with h | h | h
    · exact Or.inl (Or.inl ⟨v.ind, ⟨v, ⟨hv, h⟩, rfl⟩, by rw [h]⟩)
    · exact Or.inl (Or.inr ⟨v.ind, ⟨v, ⟨hv, h⟩, rfl⟩, by rw [h]⟩)
    · exact Or.inr ⟨v.ind, ⟨v, ⟨hv, h⟩, rfl⟩, by rw [h]⟩

theorem ind_inj {vars : List VarInfo} (hw : WfVars vars) {v w : VarInfo} (hv : v ∈ vars)
    (hw' : w ∈ vars) (h : v.ind = w.ind) : v = w := by
  have h1 := find_ind hw.nodup hv
  have h2 := find_ind hw.nodup hw'
  rw [h, h2] at h1
  exact (Option.some.inj h1).symm

theorem steps_nodup {vars : List VarInfo} (hw : WfVars vars) : ((steps vars).map (·.2)).Nodup := by
  have e : (steps vars).map (·.2) = indsOf vars 0 ++ indsOf vars 1 ++ indsOf vars 2 := by
    simp [steps, List.map_append, List.map_map, Function.comp_def]
  rw [e]
  have hsub : ∀ c, (indsOf vars c).Nodup := fun c =>
    hw.nodup.sublist (List.filter_sublist.map _)
  have hmem : ∀ c a, a ∈ indsOf vars c → ∃ v ∈ vars, v.ind = a ∧ v.cat = c := by
    intro c a ha
    simp only [indsOf, varsOf, List.mem_map, List.mem_filter, decide_eq_true_eq] at ha
    obtain ⟨v, ⟨hv, hc⟩, rfl⟩ := ha
    exact ⟨v, hv, rfl, hc⟩
  have hdis : ∀ c c', c ≠ c' → ∀ a ∈ indsOf vars c, ∀ b ∈ indsOf vars c', a ≠ b := by
    rintro c c' hcc a ha b hb rfl
    obtain ⟨v, hv, h1, h2⟩ := hmem c a ha
    obtain ⟨w, hw', h3, h4⟩ := hmem c' a hb
    have := ind_inj hw hv hw' (h1.trans h3.symm)
    subst this
    exact hcc (h2.symm.trans h4)
  rw [List.nodup_append, List.nodup_append]
  refine ⟨⟨hsub 0, hsub 1, hdis 0 1 (by omega)⟩, hsub 2, ?_⟩
  intro a ha b hb
  rcases List.mem_append.mp ha with ha | ha
  · exact hdis 0 2 (by omega) a ha b hb
  · exact hdis 1 2 (by omega) a ha b hb

theorem argShape_eq (argshapes : List (List Nat)) (a b : Nat) :
    argShape argshapes a b = (argshapes.getD a []).getD b 0 := rfl

theorem nbatchdimsOf_eq {vars : List VarInfo} {argshapes : List (List Nat)} {nb : Nat}
    (hlen : ∀ v ∈ vars, (argshapes.getD v.ind []).length = if v.cat = 2 then nb + 1 else nb + 2)
    (hex : ∃ v ∈ vars, v.cat < 2) :
    nbatchdimsOf argshapes (indsOf vars 0) (indsOf vars 1) = nb := by
  have hmem : ∀ c a, c ≠ 2 → (indsOf vars c).min? = some a →
      (argshapes.getD a []).length = nb + 2 := by
    intro c a hc ha
    have hm := List.min?_mem ha
    simp only [indsOf, varsOf, List.mem_map, List.mem_filter, decide_eq_true_eq] at hm
    obtain ⟨v, ⟨hv, hvc⟩, rfl⟩ := hm
    rw [hlen v hv, if_neg (by omega)]
  unfold nbatchdimsOf
  cases h0 : (indsOf vars 0).min? with
  | none =>
    cases h1 : (indsOf vars 1).min? with
    | none =>
      exfalso
      obtain ⟨v, hv, hc⟩ := hex
      have hz : v.cat = 0 ∨ v.cat = 1 := by omega
      rcases hz with h | h
      · have : v.ind ∈ indsOf vars 0 := List.mem_map.mpr ⟨v, by simp [varsOf, hv, h], rfl⟩
        rw [List.min?_eq_none_iff] at h0
        rw [h0] at this; simp at this
      · have : v.ind ∈ indsOf vars 1 := List.mem_map.mpr ⟨v, by simp [varsOf, hv, h], rfl⟩
        rw [List.min?_eq_none_iff] at h1
        rw [h1] at this; simp at this
    | some b => simp only [hmem 1 b (by omega) h1]; omega
  | some a =>
    cases h1 : (indsOf vars 1).min? with
    | none => simp only [hmem 0 a (by omega) h0]; omega
    | some b =>
      simp only
      rcases Nat.le_total a b with h | h
      · rw [max_eq_right h, hmem 1 b (by omega) h1]; omega
      · rw [max_eq_left h, hmem 0 a (by omega) h0]; omega

theorem prod_eq_tailProd {n : Nat} {shapes full : Nat → Nat} (hn : ∀ b < n, shapes b = full b) :
    (List.range n).foldl (fun acc b => acc * shapes b) 1 = tailProd n full n := by
  have e2 : ∀ m ≤ n, (List.range m).foldl (fun acc b => acc * shapes b) 1 *
      tailProd n full (n - m) = tailProd n full n := by
    intro m
    induction m with
    | zero => intro _; simp
    | succ m ih =>
      intro hm
      rw [List.range_succ, List.foldl_append]
      simp only [List.foldl_cons, List.foldl_nil]
      have := ih (by omega)
      obtain ⟨q, hq⟩ : ∃ q, n - m = q + 1 := ⟨n - m - 1, by omega⟩
      rw [hq, tailProd, show n - q - 1 = m by omega] at this
      rw [show n - (m + 1) = q by omega, hn m (by omega), ← this]
      ring
  have := e2 n le_rfl
  rw [Nat.sub_self, tailProd, Nat.mul_one] at this
  exact this

theorem batchCount_eq (n : Nat) (dims : Nat → Nat) :
    Spec.batchCount n dims = tailProd n dims n := by
  unfold Spec.batchCount
  rw [List.foldl_map]
  exact prod_eq_tailProd (fun _ _ => rfl)

/-- The table built by the constructor of `Sizes`. -/
theorem mkSizes_spec {vars : List VarInfo} (hw : WfVars vars) {argshapes : List (List Nat)}
    {nb : Nat} {full : Nat → Nat} {M N : Nat} (dimout : Nat)
    (h : BatchShapes vars (fun a => argshapes.getD a []) nb full M N)
    (hex : ∃ v ∈ vars, v.cat < 2) :
    let s := mkSizes argshapes M N dimout (indsOf vars 0) (indsOf vars 1) (indsOf vars 2)
    s.nbatchdims = nb ∧ s.M = M ∧ s.N = N ∧ (∀ b < nb, s.shapes b = full b) ∧
    s.nbatches = tailProd nb full nb ∧
    (∀ v ∈ vars, ∀ b < nb, s.shapes ((1 + v.ind) * (nb + 3) + b) = (argshapes.getD v.ind []).getD b 0) ∧
    (∀ v ∈ vars, v.cat < 2 → s.shapes ((1 + v.ind) * (nb + 3) + nb + v.cat) =
      blockRows M N v.cat) := by
  intro s
  have hnb : nbatchdimsOf argshapes (indsOf vars 0) (indsOf vars 1) = nb :=
    nbatchdimsOf_eq h.length hex
  let s0 : Mem Nat := ((Mem.set (fun _ => 1) nb M).set (nb + 1) N).set (nb + 2) dimout
  have hshapes : s.shapes = (steps vars).foldl (fillC nb argshapes) s0 := by
    simp only [s, mkSizes, hnb, steps, List.foldl_append, List.foldl_map]
    rfl
  obtain ⟨k1, k2, k3, k4⟩ := fillC_foldl nb argshapes full s0
    (by
      intro b hb
      simp only [s0, Mem.set]
      rw [if_neg (by omega), if_neg (by omega), if_neg (by omega)])
    (steps vars) (steps_nodup hw)
    (by
      intro x hx b hb
      obtain ⟨v, hv, rfl⟩ := (mem_steps hw).mp hx
      exact h.batch v hv b hb)
  have hfull : ∀ b < nb, s.shapes b = full b := by
    intro b hb
    rw [hshapes]
    rcases k3 b hb with ⟨e, hall⟩ | e
    · rw [e]
      rcases h.attained b hb with hf | ⟨v, hv, hf⟩
      · exact hf.symm
      · rw [← hf]
        exact (hall (v.cat, v.ind) ((mem_steps hw).mpr ⟨v, hv, rfl⟩)).symm
    · exact e
  refine ⟨hnb, ?_, ?_, hfull, ?_, ?_, ?_⟩
  · change s.shapes (nbatchdimsOf argshapes (indsOf vars 0) (indsOf vars 1)) = M
    rw [hnb, hshapes, k4 nb le_rfl (by omega)]
    simp [s0, Mem.set]
  · change s.shapes (nbatchdimsOf argshapes (indsOf vars 0) (indsOf vars 1) + 1) = N
    rw [hnb, hshapes, k4 (nb + 1) (by omega) (by omega)]
    simp [s0, Mem.set]
  · change (List.range (nbatchdimsOf argshapes (indsOf vars 0) (indsOf vars 1))).foldl
      (fun acc b => acc * s.shapes b) 1 = _
    rw [hnb]
    exact prod_eq_tailProd hfull
  · intro v hv b hb
    rw [hshapes, Nat.add_comm 1]
    exact k1 (v.cat, v.ind) ((mem_steps hw).mpr ⟨v, hv, rfl⟩) b hb
  · intro v hv hc
    rw [hshapes, Nat.add_comm 1]
    have := k2 (v.cat, v.ind) ((mem_steps hw).mpr ⟨v, hv, rfl⟩) hc
    rw [this]
    exact h.rows v hv (by omega)

/-! ### Correctness of batched calls -/

theorem bcast_lt {nb : Nat} {full shape idx : Nat → Nat} (hidx : ∀ b < nb, idx b < full b)
    (hsh : ∀ b < nb, shape b = 1 ∨ shape b = full b) : ∀ b < nb, bcast shape idx b < shape b := by
  intro b hb
  unfold bcast
  split
  · omega
  · next h => rw [(hsh b hb).resolve_left h]; exact hidx b hb

/-- Every number below the number of batches is the position of a multi-index. -/
theorem exists_unravel (nb : Nat) (dims : Nat → Nat) :
    ∀ r < Spec.batchCount nb dims, ∃ idx, (∀ b < nb, idx b < dims b) ∧ ravel nb dims idx = r := by
  induction nb with
  | zero =>
    intro r hr
    simp [Spec.batchCount] at hr
    exact ⟨fun _ => 0, by omega, by simp [ravel, hr]⟩
  | succ n ih =>
    intro r hr
    have e : Spec.batchCount (n + 1) dims = Spec.batchCount n dims * dims n := by
      simp [Spec.batchCount, List.range_succ]
    rw [e] at hr
    have hd : 0 < dims n := by
      rcases Nat.eq_zero_or_pos (dims n) with h | h
      · rw [h] at hr; omega
      · exact h
    have hq : r / dims n < Spec.batchCount n dims := by
      rw [Nat.div_lt_iff_lt_mul hd]; exact hr
    obtain ⟨idx, h1, h2⟩ := ih _ hq
    refine ⟨fun b => if b < n then idx b else r % dims n, ?_, ?_⟩
    · intro b hb
      simp only
      by_cases hbn : b < n
      · rw [if_pos hbn]; exact h1 b hbn
      · rw [if_neg hbn, show b = n by omega]; exact Nat.mod_lt _ hd
    · simp only [ravel, Nat.lt_irrefl, if_false]
      rw [ravel_congr (i' := idx) (fun _ _ => rfl) (fun b hb => by simp only [hb, if_true]), h2,
        Nat.mul_comm]
      exact Nat.div_add_mod r (dims n)

/-- Facts about the call built for batched arrays. -/
structure BatchCall (ev : (Nat → Option (Mem V)) → Mem V) (vars : List VarInfo) (tagI : Nat)
    (args : Nat → Mem V) (argshapes : List (List Nat)) (nb : Nat) (full : Nat → Nat) (M N : Nat)
    (P : RProblem V) : Prop where
  pev : P.ev = ev
  pvars : P.vars = vars
  ptag : P.tagI = tagI
  pargs : P.args = args
  nbd : P.sizes.nbatchdims = nb
  rX : P.rowsX = Spec.outRows tagI M N
  rY : P.rowsY = Spec.redRows tagI M N
  pfull : ∀ b < nb, P.sizes.shapes b = full b
  pline : ∀ v ∈ vars, ∀ b < nb, P.line v b = (argshapes.getD v.ind []).getD b 0
  lineRows : ∀ v ∈ vars, P.line v nb = blockRows M N v.cat
  nr : P.ax.nranges = Spec.batchCount nb full
  rangesX : ∀ r, P.ax.rangesX (2 * r) = r * Spec.outRows tagI M N ∧
    P.ax.rangesX (2 * r + 1) = (r + 1) * Spec.outRows tagI M N
  slices : ∀ r, P.ax.startSlice r = r ∧ P.ax.endSlice r = r + 1
  rangesY : ∀ r, P.ax.rangesY (2 * r) = r * Spec.redRows tagI M N ∧
    P.ax.rangesY (2 * r + 1) = (r + 1) * Spec.redRows tagI M N

theorem rangeCall_batch {ev : (Nat → Option (Mem V)) → Mem V} {vars : List VarInfo} {tagI : Nat}
    {args : Nat → Mem V} {argshapes : List (List Nat)} {nb : Nat} {full : Nat → Nat} {M N : Nat}
    (hw : WfVars vars) (ht : tagI < 2)
    (h : BatchShapes vars (fun a => argshapes.getD a []) nb full M N)
    (hex : ∃ v ∈ vars, v.cat < 2) (hnb : 0 < nb) (dimout outRows : Nat) :
    ∃ P, rangeCall ev vars tagI args argshapes M N dimout outRows none = some P ∧
      BatchCall ev vars tagI args argshapes nb full M N P := by
  obtain ⟨s1, s2, s3, s4, s5, s6, s7⟩ := mkSizes_spec hw dimout h hex
  generalize hs : mkSizes argshapes M N dimout (indsOf vars 0) (indsOf vars 1) (indsOf vars 2) = s at *
  have hs' : mkSizes argshapes M N dimout ((varsOf vars 0).map (·.ind)) ((varsOf vars 1).map (·.ind))
    ((varsOf vars 2).map (·.ind)) = s := hs
  unfold rangeCall
  simp only [hs']
  unfold mkRanges
  rw [if_neg (by omega)]
  refine ⟨_, rfl, ?_⟩
  have ht' : tagI = 0 ∨ tagI = 1 := by omega
  refine ⟨rfl, rfl, rfl, rfl, s1, ?_, ?_, s4, ?_, ?_, ?_, ?_, ?_, ?_⟩
  · unfold RProblem.rowsX Spec.outRows; simp only [s2, s3]
  · unfold RProblem.rowsY Spec.redRows; simp only [s2, s3]
  · intro v hv b hb
    unfold RProblem.line
    simp only [s1]
    rw [if_pos hb, s6 v hv b hb]
  · intro v hv
    unfold RProblem.line
    simp only [s1, Nat.lt_irrefl, if_false]
    by_cases h2 : v.cat = 2
    · rw [if_pos h2]; unfold blockRows; rw [if_pos h2]
    · rw [if_neg h2]
      have hc := hw.cat v hv
      have hcol := s7 v hv (by omega)
      by_cases h3 : v.cat = tagI
      · rw [if_pos h3, show 1 - (1 - tagI) = v.cat by omega, hcol]
      · rw [if_neg h3, show 1 - tagI = v.cat by omega, hcol]
  · rw [batchCount_eq, ← s5]
    unfold RProblem.ax RangesArr.axis
    rcases ht' with rfl | rfl <;> simp
  · intro r
    have e1 : (2 * r + 1) / 2 = r := by omega
    have e2 : (2 * r + 1) % 2 = 1 := by omega
    unfold RProblem.ax RangesArr.axis Spec.outRows
    rcases ht' with rfl | rfl <;> simp [e1, e2, s2, s3]
  · intro r
    unfold RProblem.ax RangesArr.axis AxisRanges.startSlice AxisRanges.endSlice
    rcases ht' with rfl | rfl <;> simp <;> split <;> omega
  · intro r
    have e1 : (2 * r + 1) / 2 = r := by omega
    have e2 : (2 * r + 1) % 2 = 1 := by omega
    unfold RProblem.ax RangesArr.axis Spec.redRows
    rcases ht' with rfl | rfl <;> simp [e1, e2, s2, s3]

theorem BatchCall.rowOff_eq {ev : (Nat → Option (Mem V)) → Mem V} {vars : List VarInfo} {tagI : Nat}
    {args : Nat → Mem V} {argshapes : List (List Nat)} {nb : Nat} {full : Nat → Nat} {M N : Nat}
    {P : RProblem V} (hP : BatchCall ev vars tagI args argshapes nb full M N P)
    (hw : WfVars vars) (ht : tagI < 2)
    (h : BatchShapes vars (fun a => argshapes.getD a []) nb full M N)
    {idx : Nat → Nat} (hidx : ∀ b < nb, idx b < full b) {v : VarInfo} (hv : v ∈ vars) :
    P.rowOff (ravel nb full idx) v =
      ravel nb (fun b => (argshapes.getD v.ind []).getD b 0)
        (bcast (fun b => (argshapes.getD v.ind []).getD b 0) idx) * blockRows M N v.cat := by
  have hc := hw.cat v hv
  have e1 : (if v.cat = 2 then ravel nb full idx else if v.cat = P.tagI then
      ravel nb full idx * P.rowsX else ravel nb full idx * P.rowsY) =
      ravel nb P.sizes.shapes idx * P.line v nb := by
    rw [hP.lineRows v hv, hP.rX, hP.rY, hP.ptag, ravel_congr (fun b hb => hP.pfull b hb) (fun _ _ => rfl)]
    unfold blockRows Spec.outRows Spec.redRows
    have ht' : tagI = 0 ∨ tagI = 1 := by omega
    have hc' : v.cat = 0 ∨ v.cat = 1 ∨ v.cat = 2 := by omega
    rcases ht' with rfl | rfl <;> rcases hc' with h' | h' | h' <;> simp [h']
  unfold RProblem.rowOff
  rw [e1, hP.nbd]
  rw [broadcastIndexLong_eq nb P.sizes.shapes (P.line v) idx
    (fun b hb => by rw [hP.pfull b hb]; exact hidx b hb)
    (fun b hb => by rw [hP.pline v hv b hb, hP.pfull b hb]; exact h.batch v hv b hb)]
  rw [hP.lineRows v hv]
  congr 1
  apply ravel_congr (fun b hb => hP.pline v hv b hb)
  intro b hb
  unfold bcast
  simp only [hP.pline v hv b hb]

theorem BatchCall.view_env {ev : (Nat → Option (Mem V)) → Mem V} {vars : List VarInfo} {tagI : Nat}
    {args : Nat → Mem V} {argshapes : List (List Nat)} {nb : Nat} {full : Nat → Nat} {M N : Nat}
    {P : RProblem V} (hP : BatchCall ev vars tagI args argshapes nb full M N P)
    (hw : WfVars vars) (ht : tagI < 2) (hnb : 0 < nb)
    (h : BatchShapes vars (fun a => argshapes.getD a []) nb full M N)
    {idx : Nat → Nat} (hidx : ∀ b < nb, idx b < full b) (i j : Nat) :
    Spec.env P.vars P.tagI (P.view (ravel nb full idx)) i j =
      Spec.env vars tagI (batchArgs vars (fun a => argshapes.getD a []) nb M N idx args) i j := by
  funext ind
  unfold Spec.env
  rw [hP.pvars, hP.ptag]
  cases hf : vars.find? (fun v => v.ind = ind) with
  | none => rfl
  | some v =>
    have hv := List.mem_of_find?_eq_some hf
    have hind : v.ind = ind := by simpa using List.find?_some hf
    simp only [Option.map_some, Option.some.injEq]
    funext k
    subst hind
    unfold RProblem.view batchArgs
    rw [if_neg (by rw [hP.nbd]; omega), hP.pvars]
    simp only [hf, Mem.shift_apply]
    rw [hP.rowOff_eq hw ht h hidx hv, hP.pargs, Nat.mul_assoc]

/-- A batched call is well formed, if the arrays have less than `2^31` rows. -/
theorem BatchCall.wf {ev : (Nat → Option (Mem V)) → Mem V} {vars : List VarInfo} {tagI : Nat}
    {args : Nat → Mem V} {argshapes : List (List Nat)} {nb : Nat} {full : Nat → Nat} {M N : Nat}
    {P : RProblem V} (hP : BatchCall ev vars tagI args argshapes nb full M N P)
    (hw : WfVars vars) (ht : tagI < 2) (hev : EvLocal vars ev)
    (h : BatchShapes vars (fun a => argshapes.getD a []) nb full M N)
    (h32 : ∀ v ∈ vars, Spec.batchCount nb (fun b => (argshapes.getD v.ind []).getD b 0) *
      blockRows M N v.cat < 2 ^ 31) : WfRProblem P := by
  refine ⟨by rw [hP.pvars]; exact hw, by rw [hP.ptag]; exact ht, by rw [hP.pvars, hP.pev]; exact hev, ?_⟩
  intro _ r hr v hv
  rw [hP.nr] at hr
  rw [hP.pvars] at hv
  obtain ⟨idx', hidx', rfl⟩ := exists_unravel nb full r hr
  rw [hP.rowOff_eq hw ht h hidx' hv]
  have hlt := ravel_lt nb _ _ (bcast_lt hidx' (fun b hb => h.batch v hv b hb))
  rw [← batchCount_eq] at hlt
  exact lt_of_le_of_lt (Nat.mul_le_mul_right _ (Nat.le_of_lt hlt)) (h32 v hv)

theorem BatchCall.like {ev : (Nat → Option (Mem V)) → Mem V} {vars : List VarInfo} {tagI : Nat}
    {args : Nat → Mem V} {argshapes : List (List Nat)} {nb : Nat} {full : Nat → Nat} {M N : Nat}
    {P : RProblem V} (hP : BatchCall ev vars tagI args argshapes nb full M N P) : BatchLike P := by
  refine ⟨fun _ r _ => ?_, fun _ r _ => hP.slices r, fun _ r _ => ?_⟩
  · rw [(hP.rangesX r).1, hP.rX]
  · rw [(hP.rangesY r).1, hP.rY]

/-- A batched call: the rows of batch `idx` are reductions over the blocks of `idx`. -/
theorem batch_correct {E} {R : Red V} {S : Scheme V} {A Bf G} (hL : LawfulScheme E R S A Bf G)
    (hf : FinLocal R) {ev : (Nat → Option (Mem V)) → Mem V} {vars : List VarInfo} {tagI : Nat}
    {args : Nat → Mem V} {argshapes : List (List Nat)} {nb : Nat} {full : Nat → Nat} {M N : Nat}
    {P : RProblem V} (hP : BatchCall ev vars tagI args argshapes nb full M N P)
    (hw : WfVars vars) (ht : tagI < 2) (hev : EvLocal vars ev) (hnb : 0 < nb)
    (h : BatchShapes vars (fun a => argshapes.getD a []) nb full M N)
    (h32 : ∀ v ∈ vars, Spec.batchCount nb (fun b => (argshapes.getD v.ind []).getD b 0) *
      blockRows M N v.cat < 2 ^ 31)
    (hne : E ∨ 0 < Spec.redRows tagI M N)
    {out out' : Mem V} (he : RExec R S P out out')
    {idx : Nat → Nat} (hidx : ∀ b < nb, idx b < full b) {i : Nat} (hi : i < Spec.outRows tagI M N) :
    ∃ acc, A (items (Spec.redRows tagI M N) (fun j => ev (Spec.env vars tagI
        (batchArgs vars (fun a => argshapes.getD a []) nb M N idx args) i j))) acc ∧
      ∀ k < R.dim, ∀ o, out' ((ravel nb full idx * Spec.outRows tagI M N + i) * R.dim + k) =
        R.fin acc o k := by
  have hnb' : P.sizes.nbatchdims ≠ 0 := by rw [hP.nbd]; omega
  have hwf := hP.wf hw ht hev h h32
  have hb := hP.like
  have hr : ravel nb full idx < P.ax.nranges := by
    rw [hP.nr, batchCount_eq]; exact ravel_lt nb full idx hidx
  set r := ravel nb full idx with hrdef
  have hitems : P.items r (r * Spec.outRows tagI M N + i) =
      items (Spec.redRows tagI M N) (fun j => ev (Spec.env vars tagI
        (batchArgs vars (fun a => argshapes.getD a []) nb M N idx args) i j)) := by
    unfold RProblem.items
    rw [(hP.slices r).1, (hP.slices r).2, show r + 1 - r = 0 + 1 by omega, sliceItems_succ]
    have h0 : sliceItems P.ax.rangesY (P.F r (r * Spec.outRows tagI M N + i)) P.locJ r 0 = [] := rfl
    rw [h0, List.nil_append, Nat.add_zero, (hP.rangesY r).1, (hP.rangesY r).2]
    unfold segItems items
    rw [Nat.succ_mul, Nat.add_sub_cancel_left, List.range'_eq_map_range, List.map_map]
    apply List.map_congr_left
    intro j _
    simp only [Function.comp_apply, RProblem.locJ, RProblem.F, RProblem.locI, hnb', if_false,
      Nat.add_sub_cancel_left, (hP.rangesX r).1, hP.pev]
    rw [hrdef, hP.view_env hw ht hnb h hidx]
  have hX1 := (hP.rangesX r).1
  have hX2 := (hP.rangesX r).2
  have := rexec_correct hL hf hwf hb ?_ he hr (i := r * Spec.outRows tagI M N + i) ?_ ?_ ?_
  · rw [hitems] at this; exact this
  · intro r' _ sl _ _
    rw [(hP.rangesY sl).1, (hP.rangesY sl).2]
    exact Nat.mul_le_mul_right _ (by omega)
  · rw [hX1, hX2, Nat.succ_mul]; omega
  · intro r' _ h1 h2
    rw [(hP.rangesX r').1] at h1
    rw [(hP.rangesX r').2] at h2
    rcases Nat.lt_trichotomy r' r with hlt | heq | hgt
    · have := Nat.mul_le_mul_right (Spec.outRows tagI M N) (show r' + 1 ≤ r by omega)
      omega
    · exact heq
    · have := Nat.mul_le_mul_right (Spec.outRows tagI M N) (show r + 1 ≤ r' by omega)
      rw [Nat.succ_mul r] at this
      omega
  · rw [hitems]
    refine hne.imp_right (fun hpos hnil => ?_)
    have := congrArg List.length hnil
    simp [items] at this
    omega

end Verif
