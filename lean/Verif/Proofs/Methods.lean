import Verif.Proofs.Parse
import Verif.Proofs.LazyRel
import Verif.Proofs.Diff
import Verif.Spec.Term

/-!
# Values of the lazy tensors built by programs
-/

namespace Verif.Lazy
open Alias (Str)
open Spec (LExpr LTree PyE PyOp PyM1 PyMi PyM2 PyM3 PlainText rowIJ)
open Parse

/-- The contents of the arrays. -/
abbrev Data := Nat → Nat → ℝ

/-- In `env`, the variables are the rows read at `(i, j)`; `f p` names the contents of the array at position `p`. -/
def EnvOk (f : Nat → Option Nat) (T : LTree Nat) (data : Data) (i j : Nat) (env : Env) : Prop :=
  ∀ l ∈ T.leaves, ∀ s, f l.1 = some s → ∀ k, env l.1 k = data s (rowIJ l.2.2 i j * l.2.1 + k)

/-- The lazy tensor `e` has vectors of dimension `d` and, where `D` holds, the values `V`. -/
structure Sem (e : LExpr) (d : Nat) (V : Data → Nat → Nat → Vec) (D : Data → Nat → Nat → Prop) : Prop where
  ok : Ok e
  ndim : ∀ L, eval e = some L → L.ndim = d ∧ L.symb = []
  pos : 0 < d
  sem : ∀ f T, T.map f = e.tree.map some → ∃ t, Denotes posLab T t ∧ t.Pos ∧ t.dim = d ∧
    ∀ data i j env, EnvOk f T data i j env → D data i j → t.Def env ∧ t.val env = V data i j

instance (s : List Char) : Decidable (PlainText s) := inferInstanceAs (Decidable (_ ∧ _))

theorem plain_show (n : Int) : PlainText (showInt n) := by
  refine plainText_of_no_V (fun c hc => ?_)
  have hd : ∀ c ∈ num n.natAbs, c ≠ 'V' := by
    intro c hc e
    have := isDigit_num hc
    rw [e] at this
    exact absurd this (by decide)
  unfold showInt at hc
  split at hc
  · rcases List.mem_cons.1 hc with rfl | hc
    · decide
    · exact hd c hc
  · exact hd c hc

/-! ## Trees -/

theorem map_leaf {f : Nat → Option Nat} {T : LTree Nat} {s : Option Nat} {d c : Nat} (h : T.map f = .leaf s d c) :
    ∃ p, T = .leaf p d c ∧ f p = s := by
  cases T <;> simp only [LTree.map, LTree.leaf.injEq, reduceCtorEq] at h
  obtain ⟨h1, rfl, rfl⟩ := h
  exact ⟨_, rfl, h1⟩

theorem map_const {f : Nat → Option Nat} {T : LTree Nat} {s : Str} (h : T.map f = .const s) : T = .const s := by
  cases T <;> simp only [LTree.map, LTree.const.injEq, reduceCtorEq] at h
  rw [h]

theorem map_un {f : Nat → Option Nat} {T : LTree Nat} {p q : Str} {x : LTree (Option Nat)} (h : T.map f = .un p q x) :
    ∃ X, T = .un p q X ∧ X.map f = x := by
  cases T <;> simp only [LTree.map, LTree.un.injEq, reduceCtorEq] at h
  obtain ⟨rfl, rfl, h⟩ := h
  exact ⟨_, rfl, h⟩

theorem map_bin {f : Nat → Option Nat} {T : LTree Nat} {p m q : Str} {x y : LTree (Option Nat)}
    (h : T.map f = .bin p m q x y) : ∃ X Y, T = .bin p m q X Y ∧ X.map f = x ∧ Y.map f = y := by
  cases T <;> simp only [LTree.map, LTree.bin.injEq, reduceCtorEq] at h
  obtain ⟨rfl, rfl, rfl, h1, h2⟩ := h
  exact ⟨_, _, rfl, h1, h2⟩

theorem map_ter {f : Nat → Option Nat} {T : LTree Nat} {p m n q : Str} {x y z : LTree (Option Nat)}
    (h : T.map f = .ter p m n q x y z) :
    ∃ X Y Z, T = .ter p m n q X Y Z ∧ X.map f = x ∧ Y.map f = y ∧ Z.map f = z := by
  cases T <;> simp only [LTree.map, LTree.ter.injEq, reduceCtorEq] at h
  obtain ⟨rfl, rfl, rfl, rfl, h1, h2, h3⟩ := h
  exact ⟨_, _, _, rfl, h1, h2, h3⟩

theorem EnvOk.bin {f : Nat → Option Nat} {p m q : Str} {X Y : LTree Nat} {data : Data} {i j : Nat} {env : Env}
    (h : EnvOk f (.bin p m q X Y) data i j env) : EnvOk f X data i j env ∧ EnvOk f Y data i j env :=
  ⟨fun l hl => h l (List.mem_append.2 (.inl hl)), fun l hl => h l (List.mem_append.2 (.inr hl))⟩

theorem EnvOk.ter {f : Nat → Option Nat} {p m n q : Str} {X Y Z : LTree Nat} {data : Data} {i j : Nat} {env : Env}
    (h : EnvOk f (.ter p m n q X Y Z) data i j env) :
    EnvOk f X data i j env ∧ EnvOk f Y data i j env ∧ EnvOk f Z data i j env := by
  refine ⟨fun l hl => h l ?_, fun l hl => h l ?_, fun l hl => h l ?_⟩ <;> simp [LTree.leaves, hl]

theorem swapCat_swapCat (c : Nat) : LTree.swapCat (LTree.swapCat c) = c := by
  unfold LTree.swapCat
  by_cases h0 : c = 0
  · simp [h0]
  · by_cases h1 : c = 1 <;> simp [h0, h1]

theorem swap_swap_num {A : Type} (T : LTree A) : T.swap.swap = T := by
  induction T <;> simp_all [LTree.swap, swapCat_swapCat]

theorem rowAt_swap (c i j : Nat) : rowIJ (LTree.swapCat c) j i = rowIJ c i j := by
  unfold rowIJ LTree.swapCat
  by_cases h0 : c = 0
  · simp [h0]
  · by_cases h1 : c = 1 <;> simp [h0, h1]

/-! ## Leaves -/

theorem sem_leaf {e : LExpr} {d c s : Nat} (hok : Ok e) (hn : ∀ L, eval e = some L → L.ndim = d ∧ L.symb = [])
    (hd : 0 < d) (ht : e.tree = .leaf s d c) (D : Data → Nat → Nat → Prop) :
    Sem e d (fun data i j => Spec.readVec (data s) d c i j) D := by
  refine ⟨hok, hn, hd, fun f T h => ?_⟩
  rw [ht] at h
  obtain ⟨p, rfl, hp⟩ := map_leaf h
  refine ⟨_, .leaf p d c, hd, rfl, fun data i j env henv _ => ⟨trivial, ?_⟩⟩
  have := henv (p, d, c) (by simp [LTree.leaves]) s hp
  show Spec.cst d (env p) = Spec.cst d _
  congr 1
  funext k
  exact this k

theorem sem_int (n : Int) : Sem (.int (showInt n)) 1 (fun _ _ _ _ => (n : ℝ)) fun _ _ _ => True := by
  refine ⟨plain_show n, fun L hL => ?_, by omega, fun f T h => ?_⟩
  · simp only [eval, Option.some.injEq] at hL
    rw [← hL]
    exact ⟨rfl, rfl⟩
  · obtain rfl := map_const h
    exact ⟨_, .int n, trivial, rfl, fun _ _ _ _ _ _ => ⟨trivial, rfl⟩⟩

/-! ## Operations -/

theorem Sem.unary {x : LExpr} {d : Nat} {V : Data → Nat → Nat → Vec} {D : Data → Nat → Nat → Prop} (h : Sem x d V D)
    {op : Str} {dimres : Option Nat} {os : List Int} (r : Term → Term) (hn : IsName op) (hp : PlainText op)
    (hc : ∀ t, call op (.term t :: os.map .num) = some (r t)) {d' : Nat} {V' : Data → Nat → Nat → Vec}
    {D' : Data → Nat → Nat → Prop} (hd' : 0 < d') (hdim : dimOr dimres d = d')
    (hr : ∀ t, t.Pos → t.dim = d → (r t).Pos ∧ (r t).dim = d') (hD : ∀ data i j, D' data i j → D data i j)
    (hv : ∀ t env data i j, t.dim = d → t.Def env → t.val env = V data i j → D' data i j →
      (r t).Def env ∧ (r t).val env = V' data i j) :
    Sem (.unary op dimres (os.map showInt) x) d' V' D' := by
  refine ⟨⟨hp, ?_, h.ok⟩, fun L hL => ?_, hd', fun f T hT => ?_⟩
  · intro o ho
    obtain ⟨n, _, rfl⟩ := List.mem_map.1 ho
    exact plain_show n
  · simp only [eval, Option.map_eq_some_iff] at hL
    obtain ⟨L', hL', rfl⟩ := hL
    obtain ⟨h1, h2⟩ := h.ndim L' hL'
    exact ⟨by rw [← hdim, ← h1]; rfl, h2⟩
  · obtain ⟨X, rfl, hX⟩ := map_un hT
    obtain ⟨t, ht, hpos, hdt, hs⟩ := h.sem f X hX
    obtain ⟨hp', hd''⟩ := hr t hpos hdt
    refine ⟨r t, .un hn ht (hc t), hp', hd'', fun data i j env henv hD' => ?_⟩
    obtain ⟨h1, h2⟩ := hs data i j env henv (hD _ _ _ hD')
    exact hv t env data i j hdt h1 h2 hD'

theorem join_ndim {x y res : LazyT} (h : join x y = some res) : res.symb = x.symb ++ y.symb := (join_tensors h).2

theorem Sem.binary {x y : LExpr} {d₁ d₂ : Nat} {V₁ V₂ : Data → Nat → Nat → Vec} {D₁ D₂ : Data → Nat → Nat → Prop}
    (hx : Sem x d₁ V₁ D₁) (hy : Sem y d₂ V₂ D₂) {op : Str} {isOp rv : Bool} {dimres : Option Nat}
    {check : Spec.DimCheck} (r : Term → Term → Term) (hn : if isOp then ∀ c ∈ op, c ≠ ' ' else IsName op)
    (hp : PlainText op)
    (hc : ∀ t u, (if isOp then infix' op t u else call op [.term t, .term u]) = some (r t u)) {d' : Nat}
    {V' : Data → Nat → Nat → Vec} {D' : Data → Nat → Nat → Prop} (hd' : 0 < d')
    (hdim : dimOr dimres (max d₁ d₂) = d')
    (hr : ∀ t u, t.Pos → u.Pos → t.dim = d₁ → u.dim = d₂ →
      (if rv then r u t else r t u).Pos ∧ (if rv then r u t else r t u).dim = d')
    (hD : ∀ data i j, D' data i j → D₁ data i j ∧ D₂ data i j)
    (hv : ∀ t u env data i j, t.dim = d₁ → u.dim = d₂ → t.Def env → u.Def env → t.val env = V₁ data i j →
      u.val env = V₂ data i j → D' data i j →
      (if rv then r u t else r t u).Def env ∧ (if rv then r u t else r t u).val env = V' data i j) :
    Sem (.binary op isOp dimres check none rv x y) d' V' D' := by
  refine ⟨⟨hp, by simp, hx.ok, hy.ok⟩, fun L hL => ?_, hd', fun f T hT => ?_⟩
  · simp only [eval, Option.bind_eq_some_iff] at hL
    obtain ⟨L₁, h₁, L₂, h₂, hL⟩ := hL
    obtain ⟨a₁, b₁⟩ := hx.ndim L₁ h₁
    obtain ⟨a₂, b₂⟩ := hy.ndim L₂ h₂
    unfold Lazy.binary at hL
    dsimp only at hL
    split at hL
    · cases hL
    · simp only [Option.map_eq_some_iff] at hL
      obtain ⟨R, hR, rfl⟩ := hL
      refine ⟨?_, ?_⟩
      · simp only [a₁, a₂, hdim]
      · simp only [join_ndim hR, b₁, b₂, List.append_nil]
  · have key : ∀ X Y t u, X.map f = x.tree.map some → Y.map f = y.tree.map some → Denotes posLab X t →
        Denotes posLab Y u → Denotes posLab
          (if isOp then LTree.bin ['('] (' ' :: op ++ [' ']) [')'] (if rv then Y else X)
          (if rv then X else Y) else .bin (op ++ ['(']) [',', ' '] (Spec.optText [',', ' '] []) (if rv then Y else X)
          (if rv then X else Y)) (if rv then r u t else r t u) := by
      intro X Y t u _ _ hX hY
      cases isOp <;> cases rv <;> simp only [Bool.false_eq_true, if_false, if_true] at hn hc ⊢
      · exact .bin hn hX hY (hc t u)
      · exact .bin hn hY hX (hc u t)
      · exact .op hn hX hY (hc t u)
      · exact .op hn hY hX (hc u t)
    have hTT : ∃ X Y, T = (if isOp then LTree.bin ['('] (' ' :: op ++ [' ']) [')'] (if rv then Y else X)
          (if rv then X else Y) else .bin (op ++ ['(']) [',', ' '] (Spec.optText [',', ' '] []) (if rv then Y else X)
          (if rv then X else Y)) ∧ X.map f = x.tree.map some ∧ Y.map f = y.tree.map some := by
      cases isOp <;> cases rv <;>
        simp only [LExpr.tree, Bool.false_eq_true, if_false, if_true, LTree.map, Option.toList_none] at hT ⊢ <;>
        obtain ⟨X, Y, h1, h2, h3⟩ := map_bin hT
      · exact ⟨X, Y, h1, h2, h3⟩
      · exact ⟨Y, X, h1, h3, h2⟩
      · exact ⟨X, Y, h1, h2, h3⟩
      · exact ⟨Y, X, h1, h3, h2⟩
    obtain ⟨X, Y, rfl, hX, hY⟩ := hTT
    obtain ⟨t, ht, hpt, hdt, hst⟩ := hx.sem f X hX
    obtain ⟨u, hu, hpu, hdu, hsu⟩ := hy.sem f Y hY
    obtain ⟨hp', hd''⟩ := hr t u hpt hpu hdt hdu
    refine ⟨_, key X Y t u hX hY ht hu, hp', hd'', fun data i j env henv hD' => ?_⟩
    have hle : EnvOk f X data i j env ∧ EnvOk f Y data i j env := by
      cases isOp <;> cases rv <;> simp only [Bool.false_eq_true, if_false, if_true] at henv
      · exact henv.bin
      · exact henv.bin.symm
      · exact henv.bin
      · exact henv.bin.symm
    obtain ⟨e1, e2⟩ := hD _ _ _ hD'
    obtain ⟨f1, f2⟩ := hst data i j env hle.1 e1
    obtain ⟨g1, g2⟩ := hsu data i j env hle.2 e2
    exact hv t u env data i j hdt hdu f1 g1 f2 g2 hD'

theorem Sem.ternary {x y z : LExpr} {d₁ d₂ d₃ : Nat} {V₁ V₂ V₃ : Data → Nat → Nat → Vec}
    {D₁ D₂ D₃ : Data → Nat → Nat → Prop} (hx : Sem x d₁ V₁ D₁) (hy : Sem y d₂ V₂ D₂) (hz : Sem z d₃ V₃ D₃) {op : Str}
    {check : Spec.DimCheck} (o : Tern) (hn : IsName op) (hp : PlainText op)
    (hc : ∀ t u v, call op [.term t, .term u, .term v] = some (.tern o t u v))
    {V' : Data → Nat → Nat → Vec} {D' : Data → Nat → Nat → Prop}
    (hD : ∀ data i j, D' data i j → D₁ data i j ∧ D₂ data i j ∧ D₃ data i j ∧
      Spec.ternDef o (max (max d₁ d₂) d₃) (V₁ data i j) (V₂ data i j) (V₃ data i j) ∧
      Spec.ternVal o (V₁ data i j) (V₂ data i j) (V₃ data i j) = V' data i j) :
    Sem (.ternary op none check x y z) (max (max d₁ d₂) d₃) V' D' := by
  have hpos : 0 < max (max d₁ d₂) d₃ := lt_of_lt_of_le hx.pos (le_trans (le_max_left _ _) (le_max_left _ _))
  refine ⟨⟨hp, hx.ok, hy.ok, hz.ok⟩, fun L hL => ?_, hpos, fun f T hT => ?_⟩
  · simp only [eval, Option.bind_eq_some_iff] at hL
    obtain ⟨L₁, h₁, L₂, h₂, L₃, h₃, hL⟩ := hL
    obtain ⟨a₁, b₁⟩ := hx.ndim L₁ h₁
    obtain ⟨a₂, b₂⟩ := hy.ndim L₂ h₂
    obtain ⟨a₃, b₃⟩ := hz.ndim L₃ h₃
    unfold Lazy.ternary at hL
    dsimp only at hL
    split at hL
    · simp only [Option.map_eq_some_iff, Option.bind_eq_some_iff] at hL
      obtain ⟨R, ⟨S, hS, hR⟩, rfl⟩ := hL
      refine ⟨?_, ?_⟩
      · simp only [a₁, a₂, a₃, dimOr]
      · simp only [join_ndim hR, join_ndim hS, b₁, b₂, b₃, List.append_nil]
    · cases hL
  · obtain ⟨X, Y, Z, rfl, hX, hY, hZ⟩ := map_ter hT
    obtain ⟨t, ht, hpt, hdt, hst⟩ := hx.sem f X hX
    obtain ⟨u, hu, hpu, hdu, hsu⟩ := hy.sem f Y hY
    obtain ⟨v, hv, hpv, hdv, hsv⟩ := hz.sem f Z hZ
    refine ⟨_, .ter hn ht hu hv (hc t u v), ⟨hpt, hpu, hpv⟩, by simp only [Term.dim, hdt, hdu, hdv],
      fun data i j env henv hD' => ?_⟩
    obtain ⟨e1, e2, e3, e4, e5⟩ := hD _ _ _ hD'
    obtain ⟨f1, f2⟩ := hst data i j env henv.ter.1 e1
    obtain ⟨g1, g2⟩ := hsu data i j env henv.ter.2.1 e2
    obtain ⟨k1, k2⟩ := hsv data i j env henv.ter.2.2 e3
    refine ⟨⟨f1, g1, k1, ?_⟩, ?_⟩
    · rw [f2, g2, k2, hdt, hdu, hdv]
      exact e4
    · rw [Term.val, f2, g2, k2]
      exact e5

theorem Sem.transpose {x : LExpr} {d : Nat} {V : Data → Nat → Nat → Vec} {D : Data → Nat → Nat → Prop} (h : Sem x d V D)
    {fresh : Nat → Nat} (hok : Ok (.t fresh x)) :
    Sem (.t fresh x) d (fun data i j => V data j i) fun data i j => D data j i := by
  refine ⟨hok, fun L hL => ?_, h.pos, fun f T hT => ?_⟩
  · simp only [eval, Option.map_eq_some_iff] at hL
    obtain ⟨L', hL', rfl⟩ := hL
    exact h.ndim L' hL'
  · have hT' : T.swap.map f = x.tree.map some := by
      rw [map_swap, hT, LExpr.tree, ← map_swap, swap_swap_num]
    obtain ⟨t, ht, hpt, hdt, hst⟩ := h.sem f T.swap hT'
    have hd := denotes_swap ht
    rw [swap_swap_num] at hd
    refine ⟨t.swapCats, hd, t.pos_swapCats.2 hpt, t.dim_swapCats.trans hdt, fun data i j env henv hD => ?_⟩
    rw [Term.def_swapCats, Term.val_swapCats]
    refine hst data j i env (fun l hl s hs k => ?_) hD
    rw [leaves_swap] at hl
    obtain ⟨l', hl', rfl⟩ := List.mem_map.1 hl
    rw [rowAt_swap]
    exact henv l' hl' s hs k

/-! ## Functions of one formula -/

/-- Where `F(x)` is defined. -/
def hDef1 : Head1 → Nat → Vec → Prop
  | .op o, d, x => Spec.unDef o d x
  | _, _, _ => True

/-- The value of `F(x)`. -/
noncomputable def hVal1 : Head1 → Nat → Vec → Vec
  | .op o, d, x => Spec.unVal o d x
  | .sqNorm2, d, x => fun _ => Spec.sqn d x
  | .norm2, d, x => fun _ => Real.sqrt (Spec.sqn d x)
  | .normalize, d, x => fun k => if Spec.sqn d x = 0 then 0 else x k / Real.sqrt (Spec.sqn d x)

/-- The dimension of `F(x)`. -/
def hDim1 : Head1 → Nat → Nat
  | .op o, d => o.dim d
  | .sqNorm2, _ | .norm2, _ => 1
  | .normalize, d => d

/-- A name which can be read again and hides no variable. -/
def goodName (op : String) : Bool :=
  op.toList.head?.any Char.isAlpha && op.toList.all nameChar && decide (PlainText op.toList)

theorem goodName_isName {op : String} (h : goodName op = true) : IsName op.toList := by
  simp only [goodName, Bool.and_eq_true] at h
  exact isName_of h.1

theorem goodName_plain {op : String} (h : goodName op = true) : PlainText op.toList := by
  simp only [goodName, Bool.and_eq_true, decide_eq_true_eq] at h
  exact h.2

theorem mk_some {e : LExpr} {v : Val} (h : mk e = some v) : v = .lazy e := by
  simp only [mk, Option.map_eq_some_iff] at h
  obtain ⟨_, _, rfl⟩ := h
  rfl

/-- `v` is a lazy tensor with the given dimension and values. -/
def Is (v : Val) (d : Nat) (V : Data → Nat → Nat → Vec) (D : Data → Nat → Nat → Prop) : Prop :=
  ∃ e, v = .lazy e ∧ Sem e d V D

section
variable {x : LExpr} {d : Nat} {V : Data → Nat → Nat → Vec} {D : Data → Nat → Nat → Prop}

theorem head1_sem (h : Sem x d V D) (op : String) (hd : Head1) {dimres : Option Nat} {v : Val}
    (hv : mk (.unary op.toList dimres [] x) = some v) (hn : goodName op = true)
    (hf : find table1 op.toList = some hd) {d' : Nat} (hdim : dimOr dimres d = d')
    (hdim' : hDim1 hd d = d') (h0 : 0 < d') (h1 : ∀ o, hd = .op o → 0 < o.dim 1) {W : Vec → Vec} {P : Vec → Prop}
    (hw : ∀ y, P y → hDef1 hd d y ∧ hVal1 hd d y = W y) :
    Is v d' (fun data i j => W (V data i j)) fun data i j => D data i j ∧ P (V data i j) := by
  refine ⟨_, mk_some hv, ?_⟩
  refine Sem.unary h (os := []) (fun t => hd.term t) (goodName_isName hn) (goodName_plain hn) (fun t => ?_) h0 hdim
    (fun t ht hdt => ?_) (fun _ _ _ hD => hD.1) (fun t env data i j hdt ht htv hD => ?_)
  · simp only [List.map_nil, call, hf, Option.map_some]
  · subst hdt
    cases hd with
    | op o => exact ⟨⟨ht, h1 o rfl⟩, hdim'⟩
    | sqNorm2 => exact ⟨ht, hdim'⟩
    | norm2 => exact ⟨ht, hdim'⟩
    | normalize => exact ⟨ht, hdim'⟩
  · obtain ⟨w1, w2⟩ := hw _ hD.2
    subst hdt
    rw [← w2, ← htv]
    rw [← htv] at w1
    cases hd with
    | op o => exact ⟨⟨ht, w1⟩, rfl⟩
    | sqNorm2 => exact ⟨ht, rfl⟩
    | norm2 => exact ⟨ht, rfl⟩
    | normalize => exact ⟨ht, rfl⟩

theorem sqLen_eq (d : Nat) (y : Vec) : Spec.sqn d y = Spec.sqLen d y := rfl

theorem m1_sem (h : Sem x d V D) {m : PyM1} {v : Val} (hv : m1Call m x = some v) :
    Is v (m.dim d) (fun data i j => m.val d (V data i j)) fun data i j => D data i j ∧ m.Def d (V data i j) := by
  cases m
  case neg =>
    exact head1_sem (d' := PyM1.neg.dim d) (W := PyM1.neg.val d) (P := PyM1.neg.Def d) h "Minus" (.op .minus) hv
      (by decide +kernel) (by decide +kernel) rfl rfl h.pos
      (by rintro _ ⟨⟩; decide) (fun y _ => ⟨trivial, rfl⟩)
  case abs =>
    exact head1_sem (d' := PyM1.abs.dim d) (W := PyM1.abs.val d) (P := PyM1.abs.Def d) h "Abs" (.op .abs) hv
      (by decide +kernel) (by decide +kernel) rfl rfl h.pos
      (by rintro _ ⟨⟩; decide) (fun y _ => ⟨trivial, rfl⟩)
  case exp =>
    exact head1_sem (d' := PyM1.exp.dim d) (W := PyM1.exp.val d) (P := PyM1.exp.Def d) h "Exp" (.op .exp) hv
      (by decide +kernel) (by decide +kernel) rfl rfl h.pos
      (by rintro _ ⟨⟩; decide) (fun y _ => ⟨trivial, rfl⟩)
  case log =>
    exact head1_sem (d' := PyM1.log.dim d) (W := PyM1.log.val d) (P := PyM1.log.Def d) h "Log" (.op .log) hv
      (by decide +kernel) (by decide +kernel) rfl rfl h.pos
      (by rintro _ ⟨⟩; decide) (fun y hy => ⟨hy, rfl⟩)
  case xlogx =>
    refine head1_sem (d' := PyM1.xlogx.dim d) (W := PyM1.xlogx.val d) (P := PyM1.xlogx.Def d) h "XLogX" (.op .xLogX)
      hv (by decide +kernel) (by decide +kernel) rfl rfl h.pos
      (by rintro _ ⟨⟩; decide) (fun y hy => ⟨hy, ?_⟩)
    funext k
    simp only [hVal1, Spec.unVal, PyM1.val]
    split_ifs with h0
    · rw [h0, zero_mul]
    · rfl
  case cos =>
    exact head1_sem (d' := PyM1.cos.dim d) (W := PyM1.cos.val d) (P := PyM1.cos.Def d) h "Cos" (.op .cos) hv
      (by decide +kernel) (by decide +kernel) rfl rfl h.pos
      (by rintro _ ⟨⟩; decide) (fun y _ => ⟨trivial, rfl⟩)
  case sin =>
    exact head1_sem (d' := PyM1.sin.dim d) (W := PyM1.sin.val d) (P := PyM1.sin.Def d) h "Sin" (.op .sin) hv
      (by decide +kernel) (by decide +kernel) rfl rfl h.pos
      (by rintro _ ⟨⟩; decide) (fun y _ => ⟨trivial, rfl⟩)
  case sinxdivx =>
    refine head1_sem (d' := PyM1.sinxdivx.dim d) (W := PyM1.sinxdivx.val d) (P := PyM1.sinxdivx.Def d) h "SinXDivX"
      (.op .sinXDivX) hv (by decide +kernel) (by decide +kernel) rfl rfl h.pos
      (by rintro _ ⟨⟩; decide) (fun y _ => ⟨trivial, ?_⟩)
    funext k
    simp only [hVal1, Spec.unVal, PyM1.val, Real.sinc]
  case asin =>
    exact head1_sem (d' := PyM1.asin.dim d) (W := PyM1.asin.val d) (P := PyM1.asin.Def d) h "Asin" (.op .asin) hv
      (by decide +kernel) (by decide +kernel) rfl rfl h.pos
      (by rintro _ ⟨⟩; decide) (fun y hy => ⟨hy, rfl⟩)
  case acos =>
    exact head1_sem (d' := PyM1.acos.dim d) (W := PyM1.acos.val d) (P := PyM1.acos.Def d) h "Acos" (.op .acos) hv
      (by decide +kernel) (by decide +kernel) rfl rfl h.pos
      (by rintro _ ⟨⟩; decide) (fun y hy => ⟨hy, rfl⟩)
  case atan =>
    exact head1_sem (d' := PyM1.atan.dim d) (W := PyM1.atan.val d) (P := PyM1.atan.Def d) h "Atan" (.op .atan) hv
      (by decide +kernel) (by decide +kernel) rfl rfl h.pos
      (by rintro _ ⟨⟩; decide) (fun y _ => ⟨trivial, rfl⟩)
  case sqrt =>
    exact head1_sem (d' := PyM1.sqrt.dim d) (W := PyM1.sqrt.val d) (P := PyM1.sqrt.Def d) h "Sqrt" (.op .sqrt) hv
      (by decide +kernel) (by decide +kernel) rfl rfl h.pos
      (by rintro _ ⟨⟩; decide) (fun y hy => ⟨hy, rfl⟩)
  case rsqrt =>
    refine head1_sem (d' := PyM1.rsqrt.dim d) (W := PyM1.rsqrt.val d) (P := PyM1.rsqrt.Def d) h "Rsqrt" (.op .rsqrt)
      hv (by decide +kernel) (by decide +kernel) rfl rfl h.pos
      (by rintro _ ⟨⟩; decide) (fun y hy => ⟨fun k hk => (hy k hk).le, ?_⟩)
    funext k
    simp only [hVal1, Spec.unVal, PyM1.val]
    split_ifs with h0
    · rw [h0, Real.sqrt_zero, div_zero]
    · rfl
  case square =>
    exact head1_sem (d' := PyM1.square.dim d) (W := PyM1.square.val d) (P := PyM1.square.Def d) h "Square"
      (.op .square) hv (by decide +kernel) (by decide +kernel) rfl rfl h.pos
      (by rintro _ ⟨⟩; decide) (fun y _ => ⟨trivial, rfl⟩)
  case sign =>
    refine head1_sem (d' := PyM1.sign.dim d) (W := PyM1.sign.val d) (P := PyM1.sign.Def d) h "Sign" (.op .sign) hv
      (by decide +kernel) (by decide +kernel) rfl rfl h.pos
      (by rintro _ ⟨⟩; decide) (fun y _ => ⟨trivial, ?_⟩)
    funext k
    simp only [hVal1, Spec.unVal, PyM1.val, Real.sign]
    split_ifs <;> first | rfl | linarith
  case step =>
    refine head1_sem (d' := PyM1.step.dim d) (W := PyM1.step.val d) (P := PyM1.step.Def d) h "Step" (.op .step) hv
      (by decide +kernel) (by decide +kernel) rfl rfl h.pos
      (by rintro _ ⟨⟩; decide) (fun y _ => ⟨trivial, ?_⟩)
    funext k
    simp only [hVal1, Spec.unVal, PyM1.val, Spec.ind]
    split_ifs <;> first | rfl | linarith
  case relu =>
    refine head1_sem (d' := PyM1.relu.dim d) (W := PyM1.relu.val d) (P := PyM1.relu.Def d) h "ReLU" (.op .relu) hv
      (by decide +kernel) (by decide +kernel) rfl rfl h.pos
      (by rintro _ ⟨⟩; decide) (fun y _ => ⟨trivial, ?_⟩)
    funext k
    simp only [hVal1, Spec.unVal, PyM1.val]
    split_ifs with h0
    · exact (max_eq_right h0.le).symm
    · exact (max_eq_left (not_lt.1 h0)).symm
  case sqnorm2 =>
    exact head1_sem (d' := PyM1.sqnorm2.dim d) (W := PyM1.sqnorm2.val d) (P := PyM1.sqnorm2.Def d) h "SqNorm2"
      .sqNorm2 hv (by decide +kernel) (by decide +kernel) rfl rfl Nat.one_pos
      (by rintro _ ⟨⟩) (fun y _ => ⟨trivial, rfl⟩)
  case norm2 =>
    exact head1_sem (d' := PyM1.norm2.dim d) (W := PyM1.norm2.val d) (P := PyM1.norm2.Def d) h "Norm2" .norm2 hv
      (by decide +kernel) (by decide +kernel) rfl rfl Nat.one_pos
      (by rintro _ ⟨⟩) (fun y _ => ⟨trivial, rfl⟩)
  case normalize =>
    refine head1_sem (d' := PyM1.normalize.dim d) (W := PyM1.normalize.val d) (P := PyM1.normalize.Def d) h
      "Normalize" .normalize hv (by decide +kernel) (by decide +kernel) rfl rfl h.pos
      (by rintro _ ⟨⟩) (fun y hy => ⟨trivial, ?_⟩)
    funext k
    exact if_neg hy
  case sum =>
    exact head1_sem (d' := PyM1.sum.dim d) (W := PyM1.sum.val d) (P := PyM1.sum.Def d) h "Sum" (.op .sum) hv
      (by decide +kernel) (by decide +kernel) rfl rfl Nat.one_pos
      (by rintro _ ⟨⟩; decide) (fun y _ => ⟨trivial, rfl⟩)
  case min =>
    exact head1_sem (d' := PyM1.min.dim d) (W := PyM1.min.val d) (P := PyM1.min.Def d) h "Min" (.op .min) hv
      (by decide +kernel) (by decide +kernel) rfl rfl Nat.one_pos
      (by rintro _ ⟨⟩; decide) (fun y _ => ⟨trivial, rfl⟩)
  case max =>
    exact head1_sem (d' := PyM1.max.dim d) (W := PyM1.max.val d) (P := PyM1.max.Def d) h "Max" (.op .max) hv
      (by decide +kernel) (by decide +kernel) rfl rfl Nat.one_pos
      (by rintro _ ⟨⟩; decide) (fun y _ => ⟨trivial, rfl⟩)
  case argmin =>
    exact head1_sem (d' := PyM1.argmin.dim d) (W := PyM1.argmin.val d) (P := PyM1.argmin.Def d) h "ArgMin"
      (.op .argMin) hv (by decide +kernel) (by decide +kernel) rfl rfl Nat.one_pos
      (by rintro _ ⟨⟩; decide) (fun y _ => ⟨trivial, rfl⟩)
  case argmax =>
    exact head1_sem (d' := PyM1.argmax.dim d) (W := PyM1.argmax.val d) (P := PyM1.argmax.Def d) h "ArgMax"
      (.op .argMax) hv (by decide +kernel) (by decide +kernel) rfl rfl Nat.one_pos
      (by rintro _ ⟨⟩; decide) (fun y _ => ⟨trivial, rfl⟩)

/-! ## Functions of one formula and integers -/

theorem headi_sem (h : Sem x d V D) (op : String) (o : Un) (os : List Int) {dimres : Option Nat} {v : Val}
    (hv : mk (.unary op.toList dimres (os.map showInt) x) = some v) (hn : goodName op = true)
    (hf : ∀ t, call op.toList (.term t :: os.map .num) = some (.un o t)) {d' : Nat}
    (hdim : dimOr dimres d = d') (hdim' : o.dim d = d') (h0 : 0 < d') (h1 : 0 < o.dim 1) {W : Vec → Vec}
    {P : Vec → Prop} (hw : ∀ y, P y → Spec.unDef o d y ∧ Spec.unVal o d y = W y) :
    Is v d' (fun data i j => W (V data i j)) fun data i j => D data i j ∧ P (V data i j) := by
  refine ⟨_, mk_some hv, ?_⟩
  refine Sem.unary h (fun t => .un o t) (goodName_isName hn) (goodName_plain hn) hf h0 hdim
    (fun t ht hdt => ?_) (fun _ _ _ hD => hD.1) (fun t env data i j hdt ht htv hD => ?_)
  · subst hdt
    exact ⟨⟨ht, h1⟩, hdim'⟩
  · obtain ⟨w1, w2⟩ := hw _ hD.2
    subst hdt
    rw [← w2, ← htv]
    rw [← htv] at w1
    exact ⟨⟨ht, w1⟩, rfl⟩

theorem Is.and_true {v : Val} (h : Is v d V fun data i j => D data i j ∧ True) : Is v d V D := by
  obtain ⟨e, he, h⟩ := h
  exact ⟨e, he, h.ok, h.ndim, h.pos, fun f T hT => by simpa using h.sem f T hT⟩

theorem ndim_some (h : Sem x d V D) {d' : Nat} (hd : ndim x = some d') : d' = d := by
  simp only [ndim, Option.map_eq_some_iff] at hd
  obtain ⟨L, hL, rfl⟩ := hd
  exact (h.ndim L hL).1

theorem elem_sem (h : Sem x d V D) {n : Int} {v : Val} (hv : elem n x = some v) :
    Is v 1 (fun data i j _ => V data i j n.toNat) D := by
  simp only [elem, Option.bind_eq_some_iff] at hv
  obtain ⟨d', hd', hv⟩ := hv
  obtain rfl := ndim_some h hd'
  split at hv
  · cases hv
  · rename_i hlt
    have := headi_sem (d' := 1) h "Elem" (.elem n) [n] hv (by decide +kernel) (fun t => by simp [call, head1i]) rfl rfl
      Nat.one_pos (by show 0 < 1; decide) (W := fun y _ => y n.toNat) (P := fun _ => True)
      (fun y _ => ⟨by show 0 ≤ n; omega, rfl⟩)
    exact this.and_true

theorem extract_sem (h : Sem x d V D) {a b : Int} {v : Val} (hv : extract a b x = some v) :
    Is v b.toNat (fun data i j => Spec.cst b.toNat fun k => V data i j (a.toNat + k)) D := by
  simp only [extract, Option.bind_eq_some_iff] at hv
  obtain ⟨d', hd', hv⟩ := hv
  obtain rfl := ndim_some h hd'
  split at hv
  · cases hv
  · split at hv
    · cases hv
    · rename_i h1 h2
      have hb : 0 < b.toNat := by omega
      have := headi_sem (d' := b.toNat) h "Extract" (.extract a.toNat b.toNat) [a, b] hv (by decide +kernel)
        (fun t => by
        simp only [call, List.map_cons, List.map_nil, head1ii]
        rw [if_neg (by decide +kernel), if_neg (by decide +kernel), if_pos ⟨trivial, by omega, by omega⟩]
        rfl) (by
          obtain ⟨n, hn⟩ : ∃ n, b.toNat = n + 1 := ⟨b.toNat - 1, by omega⟩
          rw [hn]
          rfl) rfl hb hb (W := fun y => Spec.cst b.toNat fun k => y (a.toNat + k)) (P := fun _ => True)
        (fun y _ => ⟨trivial, rfl⟩)
      exact this.and_true

theorem mi_sem (h : Sem x d V D) {m : PyMi} (hm : ∀ n, m = .oneHot n → 0 < n) {v : Val} (hv : miCall m x = some v) :
    Is v (m.dim d) (fun data i j => m.val d (V data i j)) fun data i j => D data i j ∧ m.Def d (V data i j) := by
  cases m with
  | round n =>
    refine headi_sem (W := (PyMi.round n).val d) (P := (PyMi.round n).Def d) h "Round" (.round n) [n] hv
      (by decide +kernel) (fun t => by simp [call, head1i]) rfl rfl h.pos
      (by show 0 < 1; decide) (fun y _ => ⟨trivial, rfl⟩)
  | elem n => simpa [PyMi.Def, PyMi.val, PyMi.dim] using elem_sem h hv
  | get n => simpa [PyMi.Def, PyMi.val, PyMi.dim] using elem_sem h hv
  | extract a b => simpa [PyMi.Def, PyMi.val, PyMi.dim] using extract_sem h hv
  | slice a b =>
    simp only [miCall, Option.bind_eq_some_iff] at hv
    obtain ⟨d', hd', hv⟩ := hv
    obtain rfl := ndim_some h hd'
    simpa [PyMi.Def, PyMi.val, PyMi.dim] using extract_sem h hv
  | oneHot n =>
    have hn := hm n rfl
    simp only [miCall, Option.bind_eq_some_iff] at hv
    obtain ⟨d', hd', hv⟩ := hv
    obtain rfl := ndim_some h hd'
    split at hv
    · cases hv
    · refine headi_sem (W := (PyMi.oneHot n).val _) (P := (PyMi.oneHot n).Def _) h "OneHot" (.oneHot n) [(n : Int)]
        hv (by decide +kernel) (fun t => ?_) ?_ rfl hn hn
        (fun y hy => ⟨hy, rfl⟩)
      · simp [call, head1i]
      · obtain ⟨k, rfl⟩ : ∃ k, n = k + 1 := ⟨n - 1, by omega⟩
        rfl

end

end Verif.Lazy
