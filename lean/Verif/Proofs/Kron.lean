import Verif.Proofs.TensorOp

/-!
# Permutations of the axes, and the one used by `Kron`
-/

namespace Verif.TensorDot

open Spec

section
variable {da db : Nat} {dimsA dimsB : List Nat} {ca cb : List Int} {o : Option (List Int)}

theorem IsPerm.eq {perm : List Int}
    (h : IsPerm o perm ((kept dimsA.length ca).length + (kept dimsB.length cb).length)) :
    perm = permOf dimsA dimsB ca cb o := by
  rcases h with rfl | ⟨rfl, rfl⟩ <;> rfl

theorem isPerm_permOf :
    IsPerm o (permOf dimsA dimsB ca cb o) ((kept dimsA.length ca).length + (kept dimsB.length cb).length) := by
  cases o with
  | none => exact .inr ⟨rfl, rfl⟩
  | some p => exact .inl rfl

theorem loopdim_length {perm : List Int} (h : Valid dimsA dimsB ca cb perm) :
    (mk dimsA dimsB ca cb perm).loopdim.length = dimsA.length + dimsB.length - ca.length := by
  have := h.lenA
  have := h.lenB
  show (gatherKept dimsA ca ++ gatherKept dimsB cb ++ gather dimsA ca).length = _
  simp only [List.length_append, length_gatherKept, length_gather]
  omega

end

/-! ## `Kron` -/

/-- `[x0, y0, x1, y1, ...]`. -/
def interleave : List Nat → List Nat → List Nat
  | a :: x, b :: y => a :: b :: interleave x y
  | _, _ => []

theorem length_interleave {x y : List Nat} (h : x.length = y.length) : (interleave x y).length = 2 * x.length := by
  induction x generalizing y with
  | nil => rfl
  | cons a x ih =>
    cases y with
    | nil => simp at h
    | cons b y => simp only [interleave, List.length_cons]; rw [ih (by simpa using h)]; omega

theorem interleave_get {x y : List Nat} (h : x.length = y.length) (i : Nat) (hi : i < x.length) :
    (interleave x y).getD (2 * i) 0 = x.getD i 0 ∧ (interleave x y).getD (2 * i + 1) 0 = y.getD i 0 := by
  induction x generalizing y i with
  | nil => simp at hi
  | cons a x ih =>
    cases y with
    | nil => simp at h
    | cons b y =>
      cases i with
      | zero => simp [interleave]
      | succ i =>
        have := ih (by simpa using h) i (by simpa using hi)
        rw [show 2 * (i + 1) = 2 * i + 1 + 1 by ring]
        simpa [interleave] using this

/-- The argument `permute` given by `Kron`. -/
def kronPerm (n : Nat) : List Int := ints ((List.range n).map (2 * ·) ++ (List.range n).map (2 * · + 1))

theorem kronPerm_perm (n : Nat) : (kronPerm n).Perm (ints (List.range (n + n))) := by
  unfold kronPerm ints
  apply List.Perm.map
  apply (List.perm_ext_iff_of_nodup _ List.nodup_range).2
  · intro x
    simp only [List.mem_append, List.mem_map, List.mem_range]
    constructor
    · rintro (⟨i, h, rfl⟩ | ⟨i, h, rfl⟩) <;> omega
    · intro h
      rcases Nat.even_or_odd' x with ⟨k, rfl | rfl⟩
      · exact .inl ⟨k, by omega, rfl⟩
      · exact .inr ⟨k, by omega, rfl⟩
  · rw [List.nodup_append]
    refine ⟨(List.nodup_map_iff (fun a b h => by simpa using h)).2 List.nodup_range,
      (List.nodup_map_iff (fun a b h => by simpa using h)).2 List.nodup_range, ?_⟩
    intro a ha b hb e
    simp only [List.mem_map, List.mem_range] at ha hb
    obtain ⟨i, _, rfl⟩ := ha
    obtain ⟨j, _, rfl⟩ := hb
    omega

theorem place_kronPerm {x y : List Nat} (h : x.length = y.length) :
    place (kronPerm x.length) (x ++ y) = interleave x y := by
  symm
  rw [place_iff (kronPerm_perm x.length) (by rw [length_interleave h]; omega) (by rw [List.length_append, h])]
  unfold kronPerm ints gather
  rw [List.map_append, List.map_append]
  congr 1
  · apply List.ext_getElem (by simp)
    intro i h1 h2
    have := (interleave_get h i h2).1
    simp only [List.getElem_map, List.getElem_range, Int.toNat_natCast]
    rw [this]
    simp [h2]
  · apply List.ext_getElem (by simp [h])
    intro i h1 h2
    have := (interleave_get h i (by omega)).2
    simp only [List.getElem_map, List.getElem_range, Int.toNat_natCast]
    rw [this]
    simp [h2]

theorem prod_interleave {x y : List Nat} (h : x.length = y.length) :
    (interleave x y).prod = (List.zipWith (· * ·) x y).prod := by
  induction x generalizing y with
  | nil => rfl
  | cons a x ih =>
    cases y with
    | nil => simp at h
    | cons b y =>
      simp only [interleave, List.zipWith_cons_cons, List.prod_cons]
      rw [ih (by simpa using h)]
      ring

theorem ravel_interleave {x y I J : List Nat} (h : x.length = y.length) (hI : I.length = x.length)
    (hJ : J.length = x.length) :
    ravel (interleave x y) (interleave I J) = ravel (List.zipWith (· * ·) x y) (kronIdx y I J) := by
  induction x generalizing y I J with
  | nil => cases I <;> simp_all [interleave, ravel]
  | cons a x ih =>
    cases y with
    | nil => simp at h
    | cons b y =>
      cases I with
      | nil => simp at hI
      | cons i I =>
        cases J with
        | nil => simp at hJ
        | cons j J =>
          have h' : x.length = y.length := by simpa using h
          simp only [interleave, kronIdx, List.zipWith_cons_cons, ravel, List.prod_cons]
          rw [ih h' (by simpa using hI) (by simpa using hJ), prod_interleave h']
          ring

theorem kept_nil (n : Nat) : kept n [] = List.range n := by simp [kept]

theorem gatherKept_nil (l : List Nat) : gatherKept l [] = l := by
  unfold gatherKept; rw [kept_nil]; exact map_getD_range 0 l

theorem idx_interleave {x y I J : List Nat} (hI : Arr.Idx x I) (hJ : Arr.Idx y J) (h : x.length = y.length) :
    Arr.Idx (interleave x y) (interleave I J) := by
  induction hI generalizing y J with
  | nil => exact .nil
  | cons a _ ih =>
    cases hJ with
    | nil => simp at h
    | cons b hJ => exact .cons a (.cons b (ih hJ (by simpa using h)))

end Verif.TensorDot
