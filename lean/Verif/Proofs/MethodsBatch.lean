import Verif.Spec.MethodsBatch
import Verif.Proofs.MethodsRed
import Verif.Proofs.LazyFit
import Verif.Props.EndToEndBatch

/-! Lazy tensors with batch dimensions: the blocks of the arrays. -/

namespace Verif.Lazy
open Alias (Str)
open Spec (LExpr LTree PyE PyRed PyOp PyM1 PyMi PyM2 PyM3 arrayBatch blockSize blockNumber batchOf ravel bcast)

/-! ## The arrays of a lazy tensor are those of the program -/

/-- The arrays of an expression have the shapes `sh`. -/
def Shapes (sh : Nat → List Nat) : LExpr → Prop
  | .array _ src shape _ => sh src = shape
  | .params _ src len => sh src = [len]
  | .int _ | .symb _ _ _ => True
  | .unary _ _ _ x | .t _ x => Shapes sh x
  | .binary _ _ _ _ _ _ x y => Shapes sh x ∧ Shapes sh y
  | .deriv _ _ _ v x e => Shapes sh v ∧ Shapes sh x ∧ Shapes sh e
  | .ternary _ _ _ x y z => Shapes sh x ∧ Shapes sh y ∧ Shapes sh z

section
variable {sh : Nat → List Nat}

theorem Shapes.mk {e : LExpr} {v : Val} (h : mk e = some v) (he : Shapes sh e) : Shapes sh v.toLazy := by
  rw [mk_some h]
  exact he

theorem Shapes.un {op : String} {x : LExpr} {v : Val} (h : un op x = some v) (hx : Shapes sh x) : Shapes sh v.toLazy :=
  Shapes.mk h hx

theorem Shapes.un1 {op : String} {x : LExpr} {v : Val} (h : un1 op x = some v) (hx : Shapes sh x) :
    Shapes sh v.toLazy := Shapes.mk h hx

theorem Shapes.infixOp {op : String} {b : Bool} {x : LExpr} {o v : Val} (h : infixOp op b x o = some v)
    (hx : Shapes sh x) (ho : Shapes sh o.toLazy) : Shapes sh v.toLazy := Shapes.mk h ⟨hx, ho⟩

theorem Shapes.funOp {op : String} {x : LExpr} {o v : Val} (h : funOp op x o = some v)
    (hx : Shapes sh x) (ho : Shapes sh o.toLazy) : Shapes sh v.toLazy := Shapes.mk h ⟨hx, ho⟩

theorem Shapes.dot {b : Bool} {x : LExpr} {o v : Val} (h : dot b x o = some v)
    (hx : Shapes sh x) (ho : Shapes sh o.toLazy) : Shapes sh v.toLazy := Shapes.mk h ⟨hx, ho⟩

theorem Shapes.sub {x : LExpr} {o v : Val} (h : sub x o = some v) (hx : Shapes sh x) (ho : Shapes sh o.toLazy) :
    Shapes sh v.toLazy := by
  unfold Lazy.sub at h
  split at h
  · obtain rfl := Option.some.inj h
    exact hx
  · exact Shapes.infixOp h hx ho

theorem Shapes.powf {x y : LExpr} {v : Val} (h : powf x y = some v) (hx : Shapes sh x) (hy : Shapes sh y) :
    Shapes sh v.toLazy := by
  simp only [Lazy.powf, Option.bind_eq_some_iff] at h
  obtain ⟨_, _, _, _, h⟩ := h
  split at h
  · exact Shapes.mk h ⟨hx, hy⟩
  · cases h

theorem Shapes.pow {x : LExpr} {o v : Val} (h : pow x o = some v) (hx : Shapes sh x) (ho : Shapes sh o.toLazy) :
    Shapes sh v.toLazy := by
  unfold Lazy.pow at h
  split at h
  · split at h
    · exact Shapes.un h hx
    · exact Shapes.mk h hx
  · split at h
    · exact Shapes.un h hx
    · split at h
      · exact Shapes.un h hx
      · exact Shapes.powf h hx ho
  · exact Shapes.powf h hx ho
  · cases h

theorem Shapes.left {o : PyOp} {x : LExpr} {w v : Val} (h : left o x w = some v) (hx : Shapes sh x)
    (hw : Shapes sh w.toLazy) : Shapes sh v.toLazy := by
  have hl : ∀ {v}, some (Val.lazy x) = some v → Shapes sh v.toLazy := by
    rintro _ ⟨⟩
    exact hx
  have hz : ∀ {v}, some (Val.int 0) = some v → Shapes sh v.toLazy := by
    rintro _ ⟨⟩
    trivial
  cases o
  all_goals simp only [Lazy.left, Lazy.add, Lazy.mul, Lazy.truediv] at h
  case sub => exact Shapes.sub h hx hw
  case pow => exact Shapes.pow h hx hw
  all_goals
    repeat' split at h
    all_goals first
      | exact hl h
      | exact hz h
      | exact Shapes.un h hx
      | exact Shapes.infixOp h hx hw
      | exact Shapes.funOp h hx hw
      | exact Shapes.dot h hx hw

theorem Shapes.right {o : PyOp} {x : LExpr} {w v : Val} (h : right o w x = some v) (hx : Shapes sh x)
    (hw : Shapes sh w.toLazy) : Shapes sh v.toLazy := by
  have hl : ∀ {v}, some (Val.lazy x) = some v → Shapes sh v.toLazy := by
    rintro _ ⟨⟩
    exact hx
  have hz : ∀ {v}, some (Val.int 0) = some v → Shapes sh v.toLazy := by
    rintro _ ⟨⟩
    trivial
  cases o
  all_goals simp only [Lazy.right, Lazy.radd, Lazy.rsub, Lazy.rmul, Lazy.rtruediv] at h
  all_goals
    repeat' split at h
    all_goals first
      | cases h; done
      | exact hl h
      | exact hz h
      | exact Shapes.un h hx
      | exact Shapes.infixOp h hx hw
      | exact Shapes.funOp h hx hw
      | exact Shapes.dot h hx hw

theorem Shapes.opCall {o : PyOp} {w w' v : Val} (h : opCall o w w' = some v) (hw : Shapes sh w.toLazy)
    (hw' : Shapes sh w'.toLazy) : Shapes sh v.toLazy := by
  unfold Lazy.opCall at h
  split at h
  · exact Shapes.left h hw hw'
  · exact Shapes.right h hw' hw
  · cases h

theorem Shapes.m1Call {m : PyM1} {x : LExpr} {v : Val} (h : m1Call m x = some v) (hx : Shapes sh x) :
    Shapes sh v.toLazy := by
  cases m <;> exact Shapes.mk h hx

theorem Shapes.elem {i : Int} {x : LExpr} {v : Val} (h : elem i x = some v) (hx : Shapes sh x) :
    Shapes sh v.toLazy := by
  simp only [Lazy.elem, Option.bind_eq_some_iff] at h
  obtain ⟨_, _, h⟩ := h
  split at h
  · cases h
  · exact Shapes.mk h hx

theorem Shapes.extract {i d : Int} {x : LExpr} {v : Val} (h : extract i d x = some v) (hx : Shapes sh x) :
    Shapes sh v.toLazy := by
  simp only [Lazy.extract, Option.bind_eq_some_iff] at h
  obtain ⟨_, _, h⟩ := h
  split at h
  · cases h
  · split at h
    · cases h
    · exact Shapes.mk h hx

theorem Shapes.miCall {m : PyMi} {x : LExpr} {v : Val} (h : miCall m x = some v) (hx : Shapes sh x) :
    Shapes sh v.toLazy := by
  cases m with
  | round d => exact Shapes.mk h hx
  | elem i => exact Shapes.elem h hx
  | extract i d => exact Shapes.extract h hx
  | get i => exact Shapes.elem h hx
  | slice a b =>
    simp only [Lazy.miCall, Option.bind_eq_some_iff] at h
    obtain ⟨_, _, h⟩ := h
    exact Shapes.extract h hx
  | oneHot D =>
    simp only [Lazy.miCall, Option.bind_eq_some_iff] at h
    obtain ⟨_, _, h⟩ := h
    split at h
    · cases h
    · exact Shapes.mk h hx

theorem Shapes.weightedsqnorm {x : LExpr} {o v : Val} (h : weightedsqnorm x o = some v) (hx : Shapes sh x)
    (ho : Shapes sh o.toLazy) : Shapes sh v.toLazy := by
  simp only [Lazy.weightedsqnorm, Option.bind_eq_some_iff] at h
  obtain ⟨_, _, _, _, h⟩ := h
  split at h
  · exact Shapes.mk h ⟨hx, ho⟩
  · cases h

theorem Shapes.dimOp {op : String} {f : Nat → Nat → Nat} {x : LExpr} {o v : Val} (h : dimOp op f x o = some v)
    (hx : Shapes sh x) (ho : Shapes sh o.toLazy) : Shapes sh v.toLazy := by
  simp only [Lazy.dimOp, Option.bind_eq_some_iff] at h
  obtain ⟨_, _, _, _, h⟩ := h
  exact Shapes.mk h ⟨hx, ho⟩

theorem Shapes.m2Call {m : PyM2} {x : LExpr} {o v : Val} (h : m2Call m x o = some v) (hx : Shapes sh x)
    (ho : Shapes sh o.toLazy) : Shapes sh v.toLazy := by
  cases m
  all_goals simp only [Lazy.m2Call] at h
  all_goals
    repeat' split at h
    all_goals first
      | exact Shapes.weightedsqnorm h hx ho
      | exact Shapes.dimOp h hx ho
      | exact Shapes.mk h ⟨hx, ho⟩
      | cases h

theorem Shapes.terOp {op : String} {x : LExpr} {o o' v : Val} (h : terOp op x o o' = some v) (hx : Shapes sh x)
    (ho : Shapes sh o.toLazy) (ho' : Shapes sh o'.toLazy) : Shapes sh v.toLazy := Shapes.mk h ⟨hx, ho, ho'⟩

theorem Shapes.m3Call {m : PyM3} {x : LExpr} {o o' v : Val} (h : m3Call m x o o' = some v) (hx : Shapes sh x)
    (ho : Shapes sh o.toLazy) (ho' : Shapes sh o'.toLazy) : Shapes sh v.toLazy := by
  cases m with
  | clamp =>
    simp only [Lazy.m3Call, Lazy.clamp] at h
    split at h
    · exact Shapes.mk h hx
    · exact Shapes.terOp h hx ho ho'
  | ifelse => exact Shapes.terOp h hx ho ho'
  | mod => exact Shapes.terOp h hx ho ho'
  | weightedsqdist =>
    simp only [Lazy.m3Call, Option.bind_eq_some_iff] at h
    obtain ⟨g, hg, s, hs, r, hr, h⟩ := h
    have h1 := Shapes.sub hr hx (Shapes.mk hg ho)
    split at h
    · exact Shapes.weightedsqnorm h h1 (Shapes.mk hs ho')
    · cases h

/-- The arrays of the lazy tensor built by a program are those of the program. -/
theorem run_shapes {p : PyE} {v : Val} (h : run p = some v) (hp : p.Shapes sh) : Shapes sh v.toLazy := by
  induction p generalizing v with
  | int n =>
    obtain rfl := Option.some.inj h
    trivial
  | float id src q =>
    obtain rfl := Option.some.inj h
    exact hp
  | list id src len =>
    obtain rfl := Option.some.inj h
    exact hp
  | array id src shape =>
    obtain rfl := Option.some.inj h
    exact hp
  | lazy id src shape axis => exact Shapes.mk h hp
  | m1 m x ih =>
    simp only [run, Option.bind_eq_some_iff] at h
    obtain ⟨v', hv, h⟩ := h
    have := ih hv hp
    split at h
    · exact Shapes.m1Call h this
    · cases h
  | mi m x ih =>
    simp only [run, Option.bind_eq_some_iff] at h
    obtain ⟨v', hv, h⟩ := h
    have := ih hv hp
    split at h
    · exact Shapes.miCall h this
    · cases h
  | op o x y ihx ihy =>
    simp only [run, Option.bind_eq_some_iff] at h
    obtain ⟨v', hv, w', hw, h⟩ := h
    exact Shapes.opCall h (ihx hv hp.1) (ihy hw hp.2)
  | m2 m x y ihx ihy =>
    simp only [run, Option.bind_eq_some_iff] at h
    obtain ⟨v', hv, w', hw, h⟩ := h
    have h1 := ihx hv hp.1
    have h2 := ihy hw hp.2
    split at h
    · exact Shapes.m2Call h h1 h2
    · cases h
  | m3 m x y z ihx ihy ihz =>
    simp only [run, Option.bind_eq_some_iff] at h
    obtain ⟨v', hv, w', hw, w'', hw', h⟩ := h
    have h1 := ihx hv hp.1
    have h2 := ihy hw hp.2.1
    have h3 := ihz hw' hp.2.2
    split at h
    · exact Shapes.m3Call h h1 h2 h3
    · cases h
  | t fresh x ih =>
    simp only [run, Option.bind_eq_some_iff] at h
    obtain ⟨v', hv, h⟩ := h
    have := ih hv hp
    split at h
    · exact Shapes.mk h this
    · cases h

end

/-! ## The shapes of the arrays that are passed -/

/-- The shape of an array of a lazy tensor: batch dimensions, then a block. -/
def ArrOf (sh : Nat → List Nat) (a : LTensor) : Prop :=
  ∃ r, a.shape = arrayBatch (sh a.src) ++ r ∧ r.prod = blockSize (sh a.src) ∧ r.length = if a.cat = 2 then 1 else 2

theorem last_three {shape : List Nat} (h : 3 ≤ shape.length) : ∃ b x y z, shape = b ++ [x, y, z] := by
  have h1 : (shape.drop (shape.length - 3)).length = 3 := by
    rw [List.length_drop]
    omega
  obtain ⟨x, y, z, e⟩ := List.length_eq_three.1 h1
  exact ⟨shape.take (shape.length - 3), x, y, z, by rw [← e, List.take_append_drop]⟩

theorem mkArray_block {id src : Nat} {shape : List Nat} {axis : Option Nat} {L : LazyT}
    (hok : axis = some 2 → shape.length ≤ 1) (h : mkArray id src shape axis = some L) :
    ∀ a ∈ L.tensors, a.src = src ∧ a.isList = false ∧ ∃ r, a.shape = arrayBatch shape ++ r ∧
      r.prod = blockSize shape ∧ r.length = if a.cat = 2 then 1 else 2 := by
  have key : ∀ (sh' : List Nat) (cat : Nat) (bd : Option (List Nat)), some (mkVar id src sh' cat bd) = some L →
      (∃ r, sh' = arrayBatch shape ++ r ∧ r.prod = blockSize shape ∧ r.length = if cat = 2 then 1 else 2) →
      ∀ a ∈ L.tensors, a.src = src ∧ a.isList = false ∧ ∃ r, a.shape = arrayBatch shape ++ r ∧
        r.prod = blockSize shape ∧ r.length = if a.cat = 2 then 1 else 2 := by
    intro sh' cat bd e hr a ha
    obtain rfl := Option.some.inj e
    simp only [mkVar, List.mem_singleton] at ha
    subst ha
    exact ⟨rfl, rfl, hr⟩
  unfold mkArray at h
  by_cases h0 : shape = []
  · rw [if_pos h0] at h
    split at h
    · cases h
    · refine key _ _ _ h ⟨[1], ?_⟩
      subst h0
      simp [arrayBatch, blockSize]
  · rw [if_neg h0] at h
    by_cases h3 : 3 ≤ shape.length
    · obtain ⟨b, x, y, z, rfl⟩ := last_three h3
      have e1 : arrayBatch (b ++ [x, y, z]) = b := by simp [arrayBatch]
      have e2 : blockSize (b ++ [x, y, z]) = x * (y * z) := by simp [blockSize]
      have e3 : (b ++ [x, y, z]).take ((b ++ [x, y, z]).length - 3) = b := e1
      have e4 : (b ++ [x, y, z]).getD ((b ++ [x, y, z]).length - 3) 0 = x := by simp
      have e5 : (b ++ [x, y, z]).getD ((b ++ [x, y, z]).length - 2) 0 = y := by simp
      have e6 : (b ++ [x, y, z]).getLastD 1 = z := by
        rw [List.getLastD_eq_getLast?, List.getLast?_append]
        rfl
      simp only [if_pos h3, e3, e4, e5, e6] at h
      rw [e1, e2] at key ⊢
      split at h
      · cases h
      · split at h
        · rename_i hx
          subst hx
          split at h
          · rename_i hy
            subst hy
            exact key _ _ _ h ⟨_, rfl, by simp, rfl⟩
          · exact key _ _ _ h ⟨_, rfl, by simp, rfl⟩
        · split at h
          · rename_i hy
            subst hy
            exact key _ _ _ h ⟨_, rfl, by simp, rfl⟩
          · cases h
    · have e1 : arrayBatch shape = [] := by
        rw [arrayBatch, show shape.length - 3 = 0 by omega]
        rfl
      have e2 : blockSize shape = shape.prod := by
        rw [blockSize, show shape.length - 3 = 0 by omega]
        rfl
      rw [e1, e2] at key ⊢
      simp only [if_neg h3] at h
      split at h
      · rename_i h2
        split at h
        · exact key _ _ _ h ⟨_, rfl, rfl, h2.1⟩
        · split at h
          · exact key _ _ _ h ⟨_, rfl, rfl, h2.1⟩
          · cases h
      · rename_i h2
        split at h
        · cases h
        · refine key _ _ _ h ⟨_, rfl, rfl, ?_⟩
          have : 0 < shape.length := List.length_pos_iff.2 h0
          by_cases h5 : axis = some 2
          · have := hok h5
            simp only [if_true]
            omega
          · have : shape.length ≠ 2 := fun e => h2 ⟨e, h5⟩
            simp only [if_true]
            omega

theorem swapCat_iff (c : Nat) : Spec.LTree.swapCat c = 2 ↔ c = 2 := by
  unfold Spec.LTree.swapCat
  constructor <;> intro h <;> split_ifs at * <;> omega

theorem eval_arr {sh : Nat → List Nat} (e : LExpr) (he : Ok e) (hs : Shapes sh e) (L : LazyT) (h : eval e = some L) :
    ∀ a ∈ L.tensors, ArrOf sh a ∧ (a.isList = true → a.cat = 2) := by
  induction e generalizing L with
  | array id src shape axis =>
    intro a ha
    obtain ⟨e1, e2, e3⟩ := mkArray_block he h a ha
    have hs : sh src = shape := hs
    refine ⟨?_, by simp [e2]⟩
    unfold ArrOf
    rw [e1, hs]
    exact e3
  | params id src len =>
    simp only [eval, Option.some.injEq] at h
    subst h
    intro a ha
    simp only [mkParams, List.mem_singleton] at ha
    subst ha
    have hs : sh src = [len] := hs
    exact ⟨⟨[len], by simp [arrayBatch, hs], by simp [blockSize, hs], rfl⟩, fun _ => rfl⟩
  | int s =>
    simp only [eval, Option.some.injEq] at h
    subst h
    intro a ha
    exact absurd ha List.not_mem_nil
  | symb i d c =>
    simp only [eval, Option.some.injEq] at h
    subst h
    intro a ha
    exact absurd ha List.not_mem_nil
  | unary op dimres opts x ih =>
    simp only [eval, Option.map_eq_some_iff] at h
    obtain ⟨Lx, hx, rfl⟩ := h
    exact ih he.2.2 hs Lx hx
  | binary op isOp dimres check opt rv x y ihx ihy =>
    simp only [eval, Option.bind_eq_some_iff] at h
    obtain ⟨Lx, hx, Ly, hy, h⟩ := h
    unfold binary at h
    simp only at h
    by_cases hc : ¬ (checkDims check Lx.ndim Ly.ndim = true)
    · rw [if_pos hc] at h
      exact absurd h (by simp)
    · rw [if_neg hc, Option.map_eq_some_iff] at h
      obtain ⟨res, hr, rfl⟩ := h
      obtain ⟨ht, _⟩ := join_tensors hr
      simp only [ht, List.mem_append]
      exact fun a ha => ha.elim (ihx he.2.2.1 hs.1 Lx hx a) (ihy he.2.2.2 hs.2 Ly hy a)
  | deriv op dimres check v x e ihv ihx ihe =>
    simp only [eval, Option.bind_eq_some_iff] at h
    obtain ⟨Lv, hv, Lx, hx, Le, hle, h⟩ := h
    unfold deriv at h
    simp only at h
    by_cases hc : ¬ (checkDims check Lx.ndim Le.ndim = true)
    · rw [if_pos hc] at h
      exact absurd h (by simp)
    · rw [if_neg hc, Option.map_eq_some_iff] at h
      obtain ⟨res, hr, rfl⟩ := h
      obtain ⟨ht, _⟩ := join_tensors hr
      simp only [ht, List.mem_append]
      exact fun a ha => ha.elim (ihx he.2.2.1 hs.2.1 Lx hx a) (ihe he.2.2.2.1 hs.2.2 Le hle a)
  | ternary op dimres check x y z ihx ihy ihz =>
    simp only [eval, Option.bind_eq_some_iff] at h
    obtain ⟨Lx, hx, Ly, hy, Lz, hz, h⟩ := h
    unfold ternary at h
    simp only at h
    split at h
    · rw [Option.map_eq_some_iff] at h
      obtain ⟨res, hr, rfl⟩ := h
      rw [Option.bind_eq_some_iff] at hr
      obtain ⟨w, hw, hr⟩ := hr
      obtain ⟨ht, _⟩ := join_tensors hr
      obtain ⟨ht', _⟩ := join_tensors hw
      simp only [ht, ht', List.mem_append]
      exact fun a ha => ha.elim (ihx he.2.1 hs.1 Lx hx a) fun ha =>
        ha.elim (ihy he.2.2.1 hs.2.1 Ly hy a) (ihz he.2.2.2 hs.2.2 Lz hz a)
    · exact absurd h (by simp)
  | t fresh x ih =>
    simp only [eval, Option.map_eq_some_iff] at h
    obtain ⟨Lx, hx, rfl⟩ := h
    intro a ha
    simp only [transpose, List.mem_mapIdx] at ha
    obtain ⟨k, hk, rfl⟩ := ha
    have h1 := ih he.1 hs Lx hx _ (List.getElem_mem hk)
    unfold viewOf
    by_cases e : (Lx.tensors[k]).isList = true
    · rw [if_pos e]
      exact h1
    · rw [if_neg e]
      refine ⟨?_, fun h => absurd h e⟩
      obtain ⟨r, e1, e2, e3⟩ := h1.1
      refine ⟨r, e1, e2, e3.trans ?_⟩
      simp only [swapCat_iff]

/-! ## Blocks -/

theorem ravel_congr {dims dims' idx idx' : Nat → Nat} (n : Nat) (hd : ∀ b < n, dims b = dims' b)
    (hi : ∀ b < n, idx b = idx' b) : ravel n dims idx = ravel n dims' idx' := by
  induction n with
  | zero => rfl
  | succ n ih =>
    rw [ravel, ravel, ih (fun b hb => hd b (by omega)) (fun b hb => hi b (by omega)), hd n (by omega), hi n (by omega)]

theorem ravel_zero {dims idx : Nat → Nat} (n : Nat) (hi : ∀ b < n, idx b = 0) : ravel n dims idx = 0 := by
  induction n with
  | zero => rfl
  | succ n ih => rw [ravel, ih (fun b hb => hi b (by omega)), hi n (by omega), Nat.zero_mul]

/-- Dimensions of size 1 do not count. -/
theorem ravel_pad {dims idx : Nat → Nat} (k n : Nat) (hi : ∀ b < k, idx b = 0) :
    ravel (k + n) dims idx = ravel n (fun b => dims (k + b)) fun b => idx (k + b) := by
  induction n with
  | zero => exact ravel_zero k hi
  | succ n ih => rw [← Nat.add_assoc, ravel, ravel, ih]

theorem foldl_mul (l : List Nat) (a : Nat) : l.foldl (· * ·) a = a * l.prod := by
  induction l generalizing a with
  | nil => simp
  | cons x l ih => rw [List.foldl_cons, ih, List.prod_cons, Nat.mul_assoc]

theorem range_getD (l r : List Nat) : (List.range l.length).map (fun b => (l ++ r).getD b 0) = l := by
  refine List.ext_getElem (by simp) fun i h1 h2 => ?_
  simp only [List.getElem_map, List.getElem_range]
  rw [List.getD_eq_getElem?_getD, List.getElem?_append_left h2, List.getElem?_eq_getElem h2, Option.getD_some]

theorem batchCount_eq (l r : List Nat) : Spec.batchCount l.length (fun b => (l ++ r).getD b 0) = l.prod := by
  rw [Spec.batchCount, range_getD, foldl_mul, Nat.one_mul]

theorem subRev_getD {s t : List Nat} (h : SubRev s t) (b : Nat) (hb : b < s.length) :
    s.getD b 0 = 1 ∨ s.getD b 0 = t.getD b 0 := by
  induction s generalizing t b with
  | nil => simp at hb
  | cons x s ih =>
    cases t with
    | nil => exact h.elim
    | cons y t =>
      cases b with
      | zero =>
        simp only [List.getD_cons_zero]
        exact h.1.symm
      | succ b =>
        simp only [List.getD_cons_succ]
        exact ih h.2 b (by simpa using hb)

theorem getD_reverse {l : List Nat} {b : Nat} (hb : b < l.length) : l.reverse.getD b 0 = l.getD (l.length - 1 - b) 0 := by
  rw [List.getD_eq_getElem?_getD, List.getElem?_reverse hb, ← List.getD_eq_getElem?_getD]

/-- The last dimensions are aligned. -/
theorem subRev_aligned {s t : List Nat} (h : SubRev s.reverse t.reverse) (b : Nat) (hb : b < s.length) :
    s.getD b 0 = 1 ∨ s.getD b 0 = t.getD (t.length - s.length + b) 0 := by
  have hl := h.length
  simp only [List.length_reverse] at hl
  have := subRev_getD h (s.length - 1 - b) (by rw [List.length_reverse]; omega)
  rw [getD_reverse (by omega), getD_reverse (by omega), show s.length - 1 - (s.length - 1 - b) = b by omega,
    show t.length - 1 - (s.length - 1 - b) = t.length - s.length + b by omega] at this
  exact this

/-- What a variable of the routine is. -/
structure VarOf (sh : Nat → List Nat) (batch : List Nat) (m n : Nat) (a : LTensor) (d c : Nat) : Prop where
  length : a.shape.length = if c = 2 then batch.length + 1 else batch.length + 2
  dims : ∀ b < batch.length, a.shape.getD b 0 = 1 ∨ a.shape.getD b 0 = batch.getD b 0
  rows : c ≠ 2 → a.shape.getD batch.length 0 = Spec.blockRows m n c
  count : Spec.batchCount batch.length (fun b => a.shape.getD b 0) * Spec.blockRows m n c = a.shape.dropLast.prod
  block : ∀ idx, ravel batch.length (fun b => a.shape.getD b 0) (bcast (fun b => a.shape.getD b 0) idx) =
    blockNumber batch.length (sh a.src) idx
  size : blockSize (sh a.src) = Spec.blockRows m n c * d

theorem varOf {sh : Nat → List Nat} {R : LazyT} (hf : Fits R) {a : LTensor} (ha : a ∈ R.tensors) (hs : ArrOf sh a)
    {m n : Nat} (hm : ∀ x, R.ni = some x → x = m) (hn : ∀ x, R.nj = some x → x = n) {d : Nat}
    (hd : a.shape.getLastD 1 = d) : VarOf sh (R.batchdims.getD []) m n (padTo R.nbatchdims a a.cat) d a.cat := by
  obtain ⟨r, e1, e2, e3⟩ := hs
  obtain ⟨sb, h1, h2⟩ := hf.fit a ha
  set s := arrayBatch (sh a.src) with hs
  set t := R.batchdims.getD [] with ht
  have hnb : R.nbatchdims = t.length := rfl
  have key : s = sb ∧ ∃ row, Spec.blockRows m n a.cat = row ∧
      ((a.cat ≠ 2 ∧ (a.cat = 0 ∨ a.cat = 1) ∧ r = [row, d]) ∨ (a.cat = 2 ∧ row = 1 ∧ r = [d])) := by
    have split : ∀ r', a.shape = sb ++ r' → r.length = r'.length → s = sb ∧ r = r' := fun r' h hl =>
      List.append_inj' (e1.symm.trans h) hl
    rcases h2 with ⟨hc, x, y, hx, h⟩ | ⟨hc, x, y, hx, h⟩ | ⟨hc, y, h⟩
    · obtain ⟨q1, rfl⟩ := split _ h (by rw [e3, hc]; rfl)
      have : y = d := by rw [← hd, h, List.getLastD_eq_getLast?, List.getLast?_append]; rfl
      refine ⟨q1, x, ?_, .inl ⟨by omega, .inl hc, by rw [this]⟩⟩
      rw [hc, hm x hx]
      rfl
    · obtain ⟨q1, rfl⟩ := split _ h (by rw [e3, hc]; rfl)
      have : y = d := by rw [← hd, h, List.getLastD_eq_getLast?, List.getLast?_append]; rfl
      refine ⟨q1, x, ?_, .inl ⟨by omega, .inr hc, by rw [this]⟩⟩
      rw [hc, hn x hx]
      rfl
    · obtain ⟨q1, rfl⟩ := split _ h (by rw [e3, hc]; rfl)
      have : y = d := by rw [← hd, h, List.getLastD_eq_getLast?, List.getLast?_append]; rfl
      refine ⟨q1, 1, ?_, .inr ⟨hc, rfl, by rw [this]⟩⟩
      rw [hc]
      rfl
  obtain ⟨rfl, row, hrow, hr⟩ := key
  have hl := h1.length
  simp only [List.length_reverse] at hl
  have hpad : (padTo R.nbatchdims a a.cat).shape = (List.replicate (t.length - s.length) 1 ++ s) ++ r := by
    simp only [padTo, hnb, e1, List.append_assoc, List.length_append]
    congr 2
    rcases hr with ⟨hc, hc', rfl⟩ | ⟨hc, -, rfl⟩
    · rw [if_pos hc']
      simp only [List.length_cons, List.length_nil]
      omega
    · rw [hc]
      simp only [List.length_cons, List.length_nil, OfNat.ofNat_ne_zero, OfNat.ofNat_ne_one, or_self, if_false]
      omega
  have hlen : (List.replicate (t.length - s.length) 1 ++ s).length = t.length := by
    simp only [List.length_append, List.length_replicate]
    omega
  have hsrc : (padTo R.nbatchdims a a.cat).src = a.src := rfl
  have hget : ∀ b, b < t.length → (padTo R.nbatchdims a a.cat).shape.getD b 0 =
      if b < t.length - s.length then 1 else s.getD (b - (t.length - s.length)) 0 := by
    intro b hb
    rw [hpad, List.getD_eq_getElem?_getD, List.getElem?_append_left (by omega)]
    by_cases h : b < t.length - s.length
    · rw [if_pos h, List.getElem?_append_left (by simpa using h), List.getElem?_replicate, if_pos h, Option.getD_some]
    · rw [if_neg h, List.getElem?_append_right (by simpa using h), List.length_replicate, List.getD_eq_getElem?_getD]
  refine ⟨?_, fun b hb => ?_, fun hc => ?_, ?_, fun idx => ?_, ?_⟩
  · rw [hpad, List.length_append, hlen]
    rcases hr with ⟨hc, hc', rfl⟩ | ⟨hc, -, rfl⟩
    · rw [if_neg hc]
      rfl
    · rw [if_pos hc]
      rfl
  · rw [hget b hb]
    split_ifs with h
    · exact .inl rfl
    · have := subRev_aligned h1 (b - (t.length - s.length)) (by omega)
      rwa [show t.length - s.length + (b - (t.length - s.length)) = b by omega] at this
  · rcases hr with ⟨-, -, rfl⟩ | ⟨hc', -⟩
    · rw [hpad, hrow, List.getD_eq_getElem?_getD, List.getElem?_append_right (by omega), hlen, Nat.sub_self]
      rfl
    · exact absurd hc' hc
  · rw [hpad, show t.length = (List.replicate (t.length - s.length) 1 ++ s).length from hlen.symm, hlen]
    have := batchCount_eq (List.replicate (t.length - s.length) 1 ++ s) r
    rw [hlen] at this
    rw [this, hrow]
    rcases hr with ⟨-, -, rfl⟩ | ⟨-, rfl, rfl⟩
    · rw [show (List.replicate (t.length - s.length) 1 ++ s) ++ [row, d] =
        ((List.replicate (t.length - s.length) 1 ++ s) ++ [row]) ++ [d] by simp, List.dropLast_concat]
      simp
    · rw [List.dropLast_concat, Nat.mul_one]
  · rw [hsrc, blockNumber]
    simp only [← hs]
    conv_lhs => rw [show t.length = (t.length - s.length) + s.length by omega]
    rw [ravel_pad]
    · have h3 : ∀ b < s.length, (padTo R.nbatchdims a a.cat).shape.getD (t.length - s.length + b) 0 = s.getD b 0 := by
        intro b hb
        rw [hget _ (by omega), if_neg (by omega), Nat.add_sub_cancel_left]
      refine ravel_congr _ h3 fun b hb => ?_
      unfold bcast
      beta_reduce
      rw [h3 b hb]
    · intro b hb
      unfold bcast
      beta_reduce
      rw [hget b (by omega), if_pos hb, if_pos rfl]
  · rw [hsrc, ← e2, hrow]
    rcases hr with ⟨-, -, rfl⟩ | ⟨-, rfl, rfl⟩
    · simp
    · simp

/-- The variables of a compiled formula are those of the expression, and temporary ones. -/
theorem compiled_vars {t : Term} (hp : t.Pos) {e : Expr} (hx : Runs t e) :
    ∀ v ∈ e.vars, v ∈ t.vars ∨ v.2.2 = 3 := by
  obtain ⟨n, e₀, h, hr⟩ := hx
  obtain ⟨hf, hv⟩ := compile_vars hp h
  have hfac : Factorized e₀ e := by
    rcases hr with rfl | ⟨g, rfl⟩ | ⟨n, h⟩
    · exact .refl
    · exact .factorize hf.scoped
    · exact .autoFactorize hf.scoped h
  intro v hve
  rcases hfac.vars v hve with h | h
  · exact .inl (hv v h)
  · rcases hfac.new v h with h | h
    · rw [hf.tempVars] at h
      cases h
    · exact .inr h.2

theorem given_batch (data : Data) (vars : List LTensor) (p q : Nat) {a : LTensor} (h : vars[p]? = some a) :
    given data (vars.map fun a => a.src) p q = data a.src q := by
  unfold given
  simp [List.getD_eq_getElem?_getD, h]

/-- A call with batch dimensions of the routine of a lazy tensor. -/
theorem TermOf.batchSetting {ls : List (Nat × Nat × Nat)} {vars : List LTensor} (hl : LeavesOk ls vars.length)
    {t : Term} {d : Nat} {V : Data → Nat → Nat → Vec} {D : Data → Nat → Nat → Prop}
    (h : TermOf ls (vars.map fun a => a.src) t d V D) {ex : Expr} (hx : Runs t ex) {a : Nat} (ha : a < 2) {m n : Nat}
    {data : Data} {sh : Nat → List Nat} {batch : List Nat} (hb : 0 < batch.length)
    (hv : ∀ p d c, (p, d, c) ∈ ls → ∃ a, vars[p]? = some a ∧ VarOf sh batch m n a d c)
    (hax : ∃ v ∈ ex.inputs, v.cat < 2)
    (hat : ∀ b < batch.length, batch.getD b 0 = 1 ∨ ∃ v ∈ ex.inputs,
      ((vars.map fun a => a.shape).getD v.ind []).getD b 0 = batch.getD b 0)
    (h32 : ∀ a ∈ vars, a.shape.dropLast.prod < 2 ^ 31)
    (hD : ∀ idx : Nat → Nat, (∀ b < batch.length, idx b < batch.getD b 0) → ∀ i < m, ∀ j < n,
      D (batchOf batch.length sh idx data) i j) :
    BatchSetting t ex (axis2cat a) batch.length (fun b => batch.getD b 0) (vars.map fun a => a.shape) m n
      (given data (vars.map fun a => a.src))
      fun idx => envA ls (given (batchOf batch.length sh idx data) (vars.map fun a => a.src)) a := by
  obtain ⟨hin, hlt⟩ := h.inputs hl
  have hvars : ∀ v ∈ ex.inputs, ∃ a, vars[v.ind]? = some a ∧ VarOf sh batch m n a v.dim v.cat := by
    intro v hv'
    obtain ⟨w, hw, hc, rfl⟩ := Expr.mem_inputs.mp hv'
    obtain ⟨⟨p, d, c⟩, hm, rfl⟩ := h.vars w ((compiled_vars h.pos hx w hw).resolve_right (by omega))
    exact hv p d c hm
  have hsh : ∀ {p : Nat} {a : LTensor}, vars[p]? = some a → (vars.map fun a => a.shape).getD p [] = a.shape := by
    intro p a hp
    simp [List.getD_eq_getElem?_getD, hp]
  refine ⟨h.pos, hin, hx, by obtain rfl | rfl : a = 0 ∨ a = 1 := by omega
                             all_goals decide, hb, hax, ⟨?_, ?_, ?_, hat⟩, ?_, ?_, ?_⟩
  · intro v hv'
    obtain ⟨a, e1, e2⟩ := hvars v hv'
    rw [hsh e1]
    exact e2.length
  · intro v hv'
    obtain ⟨a, e1, e2⟩ := hvars v hv'
    rw [hsh e1]
    exact e2.dims
  · intro v hv'
    obtain ⟨a, e1, e2⟩ := hvars v hv'
    rw [hsh e1]
    exact e2.rows
  · intro v hv'
    obtain ⟨a, e1, e2⟩ := hvars v hv'
    rw [hsh e1, e2.count]
    exact h32 a (List.mem_of_getElem? e1)
  · intro idx hidx i hi j hj v hvt k hk
    obtain ⟨⟨p, d, c⟩, hm, rfl⟩ := h.vars v hvt
    have hc := hl.cat _ hm
    obtain ⟨x, e1, e2⟩ := hv p d c hm
    dsimp only
    simp only [Int.toNat_natCast]
    rw [hsh e1, e2.block idx, given_batch _ _ _ _ e1]
    have hrow : envA ls (given (batchOf batch.length sh idx data) (vars.map fun a => a.src)) a i j (p : Int) k =
        given (batchOf batch.length sh idx data) (vars.map fun a => a.src) p (Spec.row (axis2cat a) i j c * d + k) := by
      obtain rfl | rfl : a = 0 ∨ a = 1 := by omega
      all_goals
        rw [row_rowIJ (by decide) (by simpa using hc)]
        simp only [axis2cat, envA]
        exact envL_leaf hl _ _ _ hm k
    rw [hrow, given_batch _ _ _ _ e1, batchOf, e2.size]
    congr 1
    ring
  · obtain rfl | rfl : a = 0 ∨ a = 1 := by omega
    all_goals intro idx hidx i hi j hj
    · exact (h.sem _ j i (hD idx hidx j hj i hi)).1
    · exact (h.sem _ i j (hD idx hidx i hi j hj)).1

end Verif.Lazy
