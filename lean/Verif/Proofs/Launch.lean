import Verif.Spec.Launch
import Mathlib.Data.List.Induction
import Mathlib.Tactic.Ring

/-!
# Launches: lemmas
-/

namespace Verif.Launch

theorem blockSize_bounds {p : Props} {c : Call} (h : Fits p c) :
    0 < blockSize p c ∧ blockSize p c ≤ c.cuda ∧ blockSize p c ≤ p.threads ∧
      blockSize p c * (c.dimY * c.size) ≤ p.shared := by
  have hc := h.cuda; have ht := h.threads; have hp := h.point; have hs := h.shared; have hk := h.chunk
  generalize hn : c.dimY * c.size = n at *
  unfold blockSize
  simp only [hn]
  have hm : 0 < max 1 n := by omega
  have hle : n ≤ max 1 n := by omega
  split_ifs with h0
  · have h1 : 0 < p.shared / max 1 n := Nat.div_pos (by omega) hm
    have h2 : p.shared / max 1 n * max 1 n ≤ p.shared := Nat.div_mul_le_self _ _
    refine ⟨by omega, by omega, by omega, le_trans (Nat.mul_le_mul ?_ hle) h2⟩
    omega
  · obtain ⟨k1, k2, k3⟩ := hk (by simpa using h0)
    have h1 : 0 < 49152 / max 1 n := Nat.div_pos (by omega) hm
    have h2 : 49152 / max 1 n * max 1 n ≤ 49152 := Nat.div_mul_le_self _ _
    refine ⟨by omega, by omega, by omega, le_trans (le_trans (Nat.mul_le_mul ?_ hle) h2) k2⟩
    omega

theorem ceil_eq {n B : Nat} (hB : 0 < B) : (n / B + if n % B = 0 then 0 else 1) = blocks n B := by
  unfold blocks
  have h := Nat.div_add_mod n B
  have hl := Nat.mod_lt n hB
  generalize n / B = q at h ⊢
  generalize n % B = r at h hl ⊢
  subst h
  split_ifs with h0
  · subst h0
    rw [show B * q + 0 + B - 1 = (B - 1) + B * q by omega, Nat.add_mul_div_left _ _ hB, Nat.div_eq_of_lt (by omega)]
    omega
  · rw [show B * q + r + B - 1 = (r - 1) + B * (q + 1) by rw [Nat.mul_add]; omega, Nat.add_mul_div_left _ _ hB,
      Nat.div_eq_of_lt (by omega)]
    omega

theorem ceilDiv_eq {n B : Nat} (hB : 0 < B) : ceilDiv n B = .ok (blocks n B) := by
  unfold ceilDiv
  rw [if_neg (by omega), ceil_eq hB]

theorem nblocks_eq {B : Nat} (hB : 0 < B) (lens : List Nat) :
    nblocks lens B = .ok (lens.map fun l => blocks l B).sum := by
  have key : ∀ (lens : List Nat) (k : Nat), lens.foldlM (fun k len => do return k + (← ceilDiv len B)) k =
      (Except.ok (k + (lens.map fun l => blocks l B).sum) : Except Fail Nat) := by
    intro lens
    induction lens with
    | nil => intro k; rfl
    | cons a l ih =>
      intro k
      rw [List.foldlM_cons, ceilDiv_eq hB]
      change l.foldlM _ (k + blocks a B) = _
      rw [ih, List.map_cons, List.sum_cons, Nat.add_assoc]
  simpa [nblocks] using key lens 0

theorem blocks_pos {n B : Nat} (hB : 0 < B) : 0 < blocks n B ↔ 0 < n := by
  unfold blocks
  rw [Nat.div_pos_iff]
  omega

theorem blocks_le {n B : Nat} (hB : 0 < B) : blocks n B ≤ n := by
  rw [← ceil_eq hB]
  have h := Nat.div_add_mod n B
  have h1 : n / B ≤ B * (n / B) := Nat.le_mul_of_pos_left _ hB
  split_ifs <;> omega

theorem le_blocks {n B : Nat} (hB : 0 < B) : n ≤ blocks n B * B := by
  rw [← ceil_eq hB]
  have h := Nat.div_add_mod n B
  have hl := Nat.mod_lt n hB
  rw [Nat.add_mul, Nat.mul_comm (n / B)]
  split_ifs <;> omega

theorem u32_small {n : Nat} (h : n < 2 ^ 32) : u32 n = n := Nat.mod_eq_of_lt h

theorem run_snoc (devs : List Props) (hist : List Event) (e : Event) :
    run devs (hist ++ [e]) = (step devs (run devs hist) e).1 := by
  simp [run, List.foldl_append]

/-- The device of every object has the limits that the global variables hold, if all the objects created are on devices
with the same limits. -/
theorem run_inv (devs : List Props) (p : Props) (hist : List Event)
    (h : ∀ d q, Event.create d ∈ hist → devs[d]? = some q → q = p) :
    (∀ d ∈ (run devs hist).mods, devs[d]? = some p) ∧ ((run devs hist).mods ≠ [] → (run devs hist).glob = p) := by
  induction hist using List.reverseRecOn with
  | nil => simp [run, State.init]
  | append_singleton hist e ih =>
    have ih := ih fun d q hd => h d q (by simp [hd])
    rw [run_snoc]
    generalize run devs hist = s at ih ⊢
    cases e with
    | create d =>
      simp only [step]
      split_ifs with hl
      · exact ih
      · cases hp : setGpuProps devs d with
        | error e => exact ih
        | ok q =>
          unfold setGpuProps at hp
          have hq : devs[d]? = some q := by
            cases hg : (devs.take 12)[d]? with
            | none => rw [hg] at hp; cases hp
            | some r =>
              rw [hg] at hp
              cases hp
              rw [List.getElem?_take] at hg
              split_ifs at hg
              exact hg
          have hqp := h d q (by simp) hq
          subst hqp
          refine ⟨fun d' hd' => ?_, fun _ => rfl⟩
          simp only [List.mem_append, List.mem_singleton] at hd'
          rcases hd' with hd' | rfl
          · exact ih.1 d' hd'
          · exact hq
    | call m c =>
      simp only [step]
      cases s.mods[m]? >>= fun d => devs[d]? with
      | none => exact ih
      | some q =>
        dsimp only
        cases grids s.glob c <;> exact ih

theorem covers_of {x B n : Nat} {g : Grid} (hB : 0 < B) (hg : g.x = x) (hb : g.block = B) (hx : n ≤ x * B)
    (hn : n ≤ 2 ^ 32) : Covers g n := by
  intro i hi
  subst hg hb
  refine ⟨i / g.block, Nat.div_lt_of_lt_mul (by rw [Nat.mul_comm]; omega), i % g.block, Nat.mod_lt _ hB, ?_⟩
  unfold rowOf
  rw [Nat.mul_comm, Nat.div_add_mod, u32_small (by omega)]

end Verif.Launch
