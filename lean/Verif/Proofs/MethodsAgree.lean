import Verif.Proofs.MethodsFit
import Verif.Spec.Accept
import Verif.Spec.MethodsAccept

/-!
# Dimensions of the formulas of lazy tensors

The formula built by a program whose sizes are compatible obeys the rules on dimensions of the documentation of the formulas.
-/

namespace Verif.Lazy
open Alias (Str)
open Spec (LExpr LTree PyE PyOp PyM1 PyMi PyM2 PyM3 Alike UnTakes BinTakes WeightTakes Like rowIJ)
open Parse

/-- The operations of the formula are given the dimensions that they take and, if `q` holds, it has no fractions. -/
def TOk (q : Prop) (t : Term) : Prop := t.Agree ∧ (q → t.NoFraction)

/-- A variable has one dimension and one category. -/
def OneVar (T : LTree Nat) : Prop := ∀ l ∈ T.leaves, ∀ l' ∈ T.leaves, l.1 = l'.1 → l = l'

/-- The formula of the lazy tensor `e` has dimension `d` and obeys the rules. -/
def Agr (q : Prop) (e : LExpr) (d : Nat) : Prop :=
  ∀ f T, OneVar T → T.map f = e.tree.map some → ∃ t, Denotes posLab T t ∧ t.dim = d ∧ TOk q t

/-- The value of the formula of `e` is not a constant. -/
def Divides (e : LExpr) : Prop :=
  ∀ f T, OneVar T → T.map f = e.tree.map some → ∀ t, Denotes posLab T t → t.Varies

theorem OneVar.bin {p m q : Str} {X Y : LTree Nat} (h : OneVar (.bin p m q X Y)) : OneVar X ∧ OneVar Y :=
  ⟨fun l hl l' hl' => h l (List.mem_append.2 (.inl hl)) l' (List.mem_append.2 (.inl hl')),
    fun l hl l' hl' => h l (List.mem_append.2 (.inr hl)) l' (List.mem_append.2 (.inr hl'))⟩

theorem OneVar.ter {p m n q : Str} {X Y Z : LTree Nat} (h : OneVar (.ter p m n q X Y Z)) :
    OneVar X ∧ OneVar Y ∧ OneVar Z := by
  refine ⟨fun l hl l' hl' => h l ?_ l' ?_, fun l hl l' hl' => h l ?_ l' ?_, fun l hl l' hl' => h l ?_ l' ?_⟩ <;>
    simp [LTree.leaves, *]

theorem OneVar.swap {T : LTree Nat} (h : OneVar T) : OneVar T.swap := by
  intro l hl l' hl' e
  rw [leaves_swap] at hl hl'
  obtain ⟨a, ha, rfl⟩ := List.mem_map.1 hl
  obtain ⟨b, hb, rfl⟩ := List.mem_map.1 hl'
  rw [h a ha b hb e]

theorem denotes_unique {T : LTree Nat} {t u : Term} (ht : Denotes posLab T t) (hu : Denotes posLab T u) : t = u := by
  have hn : IsName "Sum".toList := goodName_isName (by decide +kernel)
  have := (parseRed_text ht hn [] 0).symm.trans (parseRed_text hu hn [] 0)
  simpa using this

/-- Some values of the variables give the values read in the arrays. -/
theorem env_exists (f : Nat → Option Nat) {T : LTree Nat} (h : OneVar T) (data : Data) (i j : Nat) :
    ∃ env, EnvOk f T data i j env := by
  classical
  refine ⟨fun p k => if hp : ∃ l ∈ T.leaves, (l.1 : Int) = p then
    data ((f hp.choose.1).getD 0) (rowIJ hp.choose.2.2 i j * hp.choose.2.1 + k) else 0, fun l hl s hs k => ?_⟩
  have hp : ∃ l' ∈ T.leaves, (l'.1 : Int) = l.1 := ⟨l, hl, rfl⟩
  have e : hp.choose = l := h _ hp.choose_spec.1 l hl (by exact_mod_cast hp.choose_spec.2)
  beta_reduce
  rw [dif_pos hp, e, hs]
  rfl

theorem divides_of_sem {e : LExpr} {d : Nat} {V : Data → Nat → Nat → Vec} {D : Data → Nat → Nat → Prop} (h : Sem e d V D)
    (hv : ∃ data i j data' i' j', D data i j ∧ D data' i' j' ∧ V data i j ≠ V data' i' j') : Divides e := by
  intro f T h1 hT t ht
  obtain ⟨data, i, j, data', i', j', hd, hd', hne⟩ := hv
  obtain ⟨u, hu, -, -, hs⟩ := h.sem f T hT
  obtain rfl := denotes_unique hu ht
  obtain ⟨env, henv⟩ := env_exists f h1 data i j
  obtain ⟨env', henv'⟩ := env_exists f h1 data' i' j'
  obtain ⟨a, b⟩ := hs _ _ _ _ henv hd
  obtain ⟨a', b'⟩ := hs _ _ _ _ henv' hd'
  exact ⟨env, env', a, a', by rwa [b, b']⟩

theorem divides_leaf {e : LExpr} {s d c : Nat} (ht : e.tree = .leaf s d c) : Divides e := by
  intro f T _ h t hT
  rw [ht] at h
  obtain ⟨p, rfl, _⟩ := map_leaf h
  obtain rfl := denotes_unique (Denotes.leaf p d c) hT
  refine ⟨fun _ _ => 0, fun _ _ => 1, trivial, trivial, fun h => ?_⟩
  have := congrFun h 0
  simp [Term.val, Spec.cst] at this

theorem agree_swapCats (t : Term) : t.swapCats.Agree ↔ t.Agree := by
  induction t <;> simp_all [Term.swapCats, Term.Agree, Term.dim_swapCats]

theorem varies_swapCats (t : Term) : t.swapCats.Varies ↔ t.Varies := by
  simp only [Term.Varies, Term.def_swapCats, Term.val_swapCats]

theorem noFraction_swapCats (t : Term) : t.swapCats.NoFraction ↔ t.NoFraction := by
  induction t <;> simp_all [Term.swapCats, Term.NoFraction, varies_swapCats]

section
variable {q : Prop}

theorem agr_leaf {e : LExpr} {s d c : Nat} (ht : e.tree = .leaf s d c) : Agr q e d := fun f T _ h => by
  rw [ht] at h
  obtain ⟨p, rfl, _⟩ := map_leaf h
  exact ⟨_, .leaf p d c, rfl, trivial, fun _ => trivial⟩

theorem agr_int (n : Int) : Agr q (.int (showInt n)) 1 := fun f T _ h => by
  obtain rfl := map_const h
  exact ⟨_, .int n, rfl, trivial, fun _ => trivial⟩

theorem agr_unary {x : LExpr} {d d' : Nat} (h : Agr q x d) {op : Str} {dimres : Option Nat} (os : List Int) (r : Term → Term)
    (hn : IsName op) (hc : ∀ t, call op (.term t :: os.map .num) = some (r t))
    (hr : ∀ t, t.dim = d → TOk q t → (r t).dim = d' ∧ TOk q (r t)) : Agr q (.unary op dimres (os.map showInt) x) d' := by
  intro f T h1 hT
  obtain ⟨X, rfl, hX⟩ := map_un hT
  obtain ⟨t, ht, hd, ha⟩ := h f X h1 hX
  exact ⟨r t, .un hn ht (hc t), hr t hd ha⟩

theorem agr_binary {x y : LExpr} {d₁ d₂ d' : Nat} (hx : Agr q x d₁) (hy : Agr q y d₂) {op : Str} {isOp rv : Bool}
    {dimres : Option Nat} {check : Spec.DimCheck} (r : Term → Term → Term)
    (hn : if isOp then ∀ c ∈ op, c ≠ ' ' else IsName op)
    (hc : ∀ t u, (if isOp then infix' op t u else call op [.term t, .term u]) = some (r t u))
    (hr : ∀ t u, t.dim = d₁ → u.dim = d₂ → TOk q t → TOk q u → (Divides x → t.Varies) → (Divides y → u.Varies) →
      (if rv then r u t else r t u).dim = d' ∧ TOk q (if rv then r u t else r t u)) :
    Agr q (.binary op isOp dimres check none rv x y) d' := by
  intro f T h1 hT
  cases isOp <;> cases rv <;>
    simp only [LExpr.tree, Bool.false_eq_true, if_false, if_true, LTree.map, Option.toList_none] at hT hn hc hr <;>
    obtain ⟨X, Y, rfl, h2, h3⟩ := map_bin hT
  · obtain ⟨t, ht, hdt, hat⟩ := hx f X h1.bin.1 h2
    obtain ⟨u, hu, hdu, hau⟩ := hy f Y h1.bin.2 h3
    exact ⟨_, .bin hn ht hu (hc t u), hr t u hdt hdu hat hau (fun h => h f X h1.bin.1 h2 t ht) fun h => h f Y h1.bin.2 h3 u hu⟩
  · obtain ⟨t, ht, hdt, hat⟩ := hx f Y h1.bin.2 h3
    obtain ⟨u, hu, hdu, hau⟩ := hy f X h1.bin.1 h2
    exact ⟨_, .bin hn hu ht (hc u t), hr t u hdt hdu hat hau (fun h => h f Y h1.bin.2 h3 t ht) fun h => h f X h1.bin.1 h2 u hu⟩
  · obtain ⟨t, ht, hdt, hat⟩ := hx f X h1.bin.1 h2
    obtain ⟨u, hu, hdu, hau⟩ := hy f Y h1.bin.2 h3
    exact ⟨_, .op hn ht hu (hc t u), hr t u hdt hdu hat hau (fun h => h f X h1.bin.1 h2 t ht) fun h => h f Y h1.bin.2 h3 u hu⟩
  · obtain ⟨t, ht, hdt, hat⟩ := hx f Y h1.bin.2 h3
    obtain ⟨u, hu, hdu, hau⟩ := hy f X h1.bin.1 h2
    exact ⟨_, .op hn hu ht (hc u t), hr t u hdt hdu hat hau (fun h => h f Y h1.bin.2 h3 t ht) fun h => h f X h1.bin.1 h2 u hu⟩

theorem agr_t {x : LExpr} {d : Nat} (h : Agr q x d) (fresh : Nat → Nat) : Agr q (.t fresh x) d := by
  intro f T h1 hT
  have hT' : T.swap.map f = x.tree.map some := by
    rw [map_swap, hT, LExpr.tree, ← map_swap, swap_swap_num]
  obtain ⟨t, ht, hdt, hat⟩ := h f T.swap h1.swap hT'
  have hd := denotes_swap ht
  rw [swap_swap_num] at hd
  exact ⟨t.swapCats, hd, t.dim_swapCats.trans hdt, (agree_swapCats t).2 hat.1, fun hq => (noFraction_swapCats t).2 (hat.2 hq)⟩

theorem alike_pair {ds : List Nat} (h : Alike ds) {d d' : Nat} (h1 : d ∈ ds) (h2 : d' ∈ ds) : Like d d' := by
  obtain ⟨D, hD⟩ := h
  have := hD d h1
  have := hD d' h2
  unfold Like
  omega

theorem alike_like {d d' : Nat} (h : Alike [d, d']) : Like d d' := alike_pair h (by simp) (by simp)

/-- If a lazy tensor is made, its formula obeys the rules. -/
def AMade (q : Prop) (o : Option Val) (d : Nat) : Prop := ∀ v, o = some v → ∃ e, v = .lazy e ∧ Agr q e d

theorem amade_mk {e : LExpr} {d : Nat} (h : Agr q e d) : AMade q (mk e) d := fun _ hv => ⟨e, mk_some hv, h⟩

theorem AMade.cast {o : Option Val} {d d' : Nat} (h : AMade q o d) (e : d = d') : AMade q o d' := e ▸ h

section
variable {x y : LExpr} {w : Val} {d d' : Nat}

theorem amade_head (h : Agr q x d) (op : String) (hd : Head1) {dimres : Option Nat} (hn : goodName op = true)
    (hf : find table1 op.toList = some hd)
    (hr : ∀ t, t.dim = d → TOk q t → (hd.term t).dim = d' ∧ TOk q (hd.term t)) :
    AMade q (mk (.unary op.toList dimres [] x)) d' :=
  amade_mk (agr_unary h [] (fun t => hd.term t) (goodName_isName hn)
    (fun t => by simp only [List.map_nil, call, hf, Option.map_some]) hr)

theorem amade_opts (h : Agr q x d) (op : String) (o : Un) {dimres : Option Nat} (os : List Int) (hn : goodName op = true)
    (hf : ∀ t, call op.toList (.term t :: os.map .num) = some (.un o t)) (hd : o.dim d = d') (ht : UnTakes o d) :
    AMade q (mk (.unary op.toList dimres (os.map showInt) x)) d' :=
  amade_mk (agr_unary h os (fun t => .un o t) (goodName_isName hn) hf fun t e ha => by
    subst e
    exact ⟨hd, ⟨ha.1, ht⟩, ha.2⟩)

theorem amade_infix (hx : Agr q x d) (hy : Agr q y d') (op : String) (b : Bin) (sw : Bool) {rv : Bool} {dimres : Option Nat}
    {check : Spec.DimCheck} (hn : goodOp op = true) (hf : find tableOp op.toList = some (b, sw)) {D : Nat}
    (hd : (if sw != rv then b.dim d' d else b.dim d d') = D) (ht : if sw != rv then BinTakes b d' d else BinTakes b d d')
    (hq : q → b = .div → if sw != rv then Divides x else Divides y := by intro _ h; cases h) :
    AMade q (mk (.binary op.toList true dimres check none rv x y)) D := by
  refine amade_mk (agr_binary hx hy (fun t u => if sw then .bin b u t else .bin b t u) (goodOp_space hn)
    (fun t u => by simp only [if_true, infix', hf, Option.map_some]) fun t u e e' ha hb vt vu => ?_)
  subst e e'
  cases sw <;> cases rv <;> simp only [bne, Bool.not_true, Bool.not_false, beq_self_eq_true, Bool.false_eq_true, if_false, if_true,
    Bool.true_beq, Bool.false_beq] at hd ht hq ⊢
  · exact ⟨hd, ⟨ha.1, hb.1, ht⟩, fun c => ⟨ha.2 c, hb.2 c, fun h => vu (hq c h)⟩⟩
  · exact ⟨hd, ⟨hb.1, ha.1, ht⟩, fun c => ⟨hb.2 c, ha.2 c, fun h => vt (hq c h)⟩⟩
  · exact ⟨hd, ⟨hb.1, ha.1, ht⟩, fun c => ⟨hb.2 c, ha.2 c, fun h => vt (hq c h)⟩⟩
  · exact ⟨hd, ⟨ha.1, hb.1, ht⟩, fun c => ⟨ha.2 c, hb.2 c, fun h => vu (hq c h)⟩⟩

theorem amade_call (hx : Agr q x d) (hy : Agr q y d') (op : String) (b : Head2) {rv : Bool} {dimres : Option Nat}
    {check : Spec.DimCheck} (hn : goodName op = true) (hf : find table2 op.toList = some b) {D : Nat}
    (hr : ∀ t u, t.dim = d → u.dim = d' → TOk q t → TOk q u →
      (if rv then b.term u t else b.term t u).dim = D ∧ TOk q (if rv then b.term u t else b.term t u)) :
    AMade q (mk (.binary op.toList false dimres check none rv x y)) D :=
  amade_mk (agr_binary hx hy (fun t u => b.term t u) (goodName_isName hn)
    (fun t u => by simp only [Bool.false_eq_true, if_false, call, hf, Option.map_some]) fun t u e e' ha hb _ _ => hr t u e e' ha hb)

theorem amade_bin (hx : Agr q x d) (hy : Agr q y d') (op : String) (b : Bin) {dimres : Option Nat}
    {check : Spec.DimCheck} (hn : goodName op = true) (hf : find table2 op.toList = some (.op b)) {D : Nat}
    (hd : b.dim d d' = D) (ht : BinTakes b d d') (hb' : b ≠ .div := by intro h; cases h) :
    AMade q (mk (.binary op.toList false dimres check none false x y)) D :=
  amade_call hx hy op (.op b) hn hf fun t u e e' ha hb => by
    subst e e'
    exact ⟨hd, ⟨ha.1, hb.1, ht⟩, fun c => ⟨ha.2 c, hb.2 c, fun h => (hb' h).elim⟩⟩

theorem amade_left {B : List Nat} {m n : Nat} (tx : Tot B m n x d) (tw : Tot B m n w.toLazy d') (hx : Agr q x d)
    (hw : Agr q w.toLazy d') {o : PyOp} (ho : o ≠ .pow) (h : o.Fits d d') (hz : o = .mul → scalarEq w 0 = false)
    (hq : q → o = .div → Divides w.toLazy) : AMade q (left o x w) (o.dim d d') := by
  have hp := tot_pos tx
  have h1 : ∀ k, scalarEq w k = true → AMade q (some (.lazy x)) (max d d') := fun k hk v hv =>
    ⟨x, (Option.some.inj hv).symm, by rw [scalar_dim tw hk, max_eq_left hp]; exact hx⟩
  have h2 : ∀ k, scalarEq w k = true → AMade q (un "Minus" x) (max d d') := fun k hk => by
    rw [scalar_dim tw hk, max_eq_left hp]
    exact amade_head hx "Minus" (.op .minus) (by decide +kernel) (by decide +kernel) fun t e ha => ⟨e, ⟨ha.1, trivial⟩, ha.2⟩
  cases o with
  | add =>
    simp only [left, add]
    split_ifs with h0
    · exact h1 _ h0
    · exact amade_infix hx hw "+" .add false (by decide +kernel) (by decide +kernel) rfl (alike_like h)
  | sub =>
    simp only [left, sub]
    split_ifs with h0
    · exact h1 _ h0
    · exact amade_infix hx hw "-" .sub false (by decide +kernel) (by decide +kernel) rfl (alike_like h)
  | mul =>
    simp only [left, mul, hz rfl, Bool.false_eq_true, if_false]
    split_ifs with h0 h0'
    · exact h1 _ h0
    · exact h2 _ h0'
    · exact amade_infix hx hw "*" .mul false (by decide +kernel) (by decide +kernel) rfl (alike_like h)
  | div =>
    simp only [left, truediv]
    split_ifs with h0
    · exact h1 _ h0
    · exact amade_infix hx hw "/" .div false (by decide +kernel) (by decide +kernel) rfl (alike_like h)
        fun c _ => hq c rfl
  | dot => exact amade_infix hx hw "|" .scalprod false (by decide +kernel) (by decide +kernel) rfl (.inl h)
  | pow => exact (ho rfl).elim
  | eq => exact amade_bin hx hw "Equal" .equal (by decide +kernel) (by decide +kernel) rfl (alike_like h)
  | ne => exact amade_bin hx hw "NotEqual" .notEqual (by decide +kernel) (by decide +kernel) rfl (alike_like h)
  | lt => exact amade_infix hx hw "<" .lessThan false (by decide +kernel) (by decide +kernel) rfl (alike_like h)
  | gt =>
    exact amade_infix hx hw ">" .lessThan true (by decide +kernel) (by decide +kernel) (max_comm _ _)
      (alike_like (alike_symm h))
  | le => exact amade_infix hx hw "<=" .lessOrEqual false (by decide +kernel) (by decide +kernel) rfl (alike_like h)
  | ge =>
    exact amade_infix hx hw ">=" .lessOrEqual true (by decide +kernel) (by decide +kernel) (max_comm _ _)
      (alike_like (alike_symm h))

theorem amade_right {B : List Nat} {m n : Nat} (tw : Tot B m n w.toLazy d) (tx : Tot B m n x d') (hw : Agr q w.toLazy d)
    (hx : Agr q x d') {o : PyOp} (ho : o ≠ .pow) (h : o.Fits d d') (hz : o = .mul ∨ o = .div → scalarEq w 0 = false)
    (hq : q → o = .div → Divides x) : AMade q (right o w x) (o.dim d d') := by
  have hp := tot_pos tx
  have h1 : ∀ k, scalarEq w k = true → AMade q (some (.lazy x)) (max d d') := fun k hk v hv =>
    ⟨x, (Option.some.inj hv).symm, by rw [scalar_dim tw hk, max_eq_right hp]; exact hx⟩
  have h2 : ∀ k, scalarEq w k = true → AMade q (un "Minus" x) (max d d') := fun k hk => by
    rw [scalar_dim tw hk, max_eq_right hp]
    exact amade_head hx "Minus" (.op .minus) (by decide +kernel) (by decide +kernel) fun t e ha => ⟨e, ⟨ha.1, trivial⟩, ha.2⟩
  have h3 : ∀ k, scalarEq w k = true → AMade q (un "Inv" x) (max d d') := fun k hk => by
    rw [scalar_dim tw hk, max_eq_right hp]
    exact amade_head hx "Inv" (.op .inv) (by decide +kernel) (by decide +kernel) fun t e ha => ⟨e, ⟨ha.1, trivial⟩, ha.2⟩
  cases o with
  | add =>
    simp only [right, radd]
    split_ifs with h0
    · exact h1 _ h0
    · exact amade_infix hx hw "+" .add false (by decide +kernel) (by decide +kernel) rfl (alike_like h)
  | sub =>
    simp only [right, rsub]
    split_ifs with h0
    · exact h2 _ h0
    · exact amade_infix hx hw "-" .sub false (by decide +kernel) (by decide +kernel) rfl (alike_like h)
  | mul =>
    simp only [right, rmul, hz (.inl rfl), Bool.false_eq_true, if_false]
    split_ifs with h0 h0'
    · exact h1 _ h0
    · exact h2 _ h0'
    · exact amade_infix hx hw "*" .mul false (by decide +kernel) (by decide +kernel) rfl (alike_like h)
  | div =>
    simp only [right, rtruediv, hz (.inr rfl), Bool.false_eq_true, if_false]
    split_ifs with h0
    · exact h3 _ h0
    · exact amade_infix hx hw "/" .div false (by decide +kernel) (by decide +kernel) rfl (alike_like h)
        fun c _ => hq c rfl
  | dot =>
    exact amade_infix hx hw "|" .scalprod false (by decide +kernel) (by decide +kernel) rfl (.inl h)
  | pow => exact (ho rfl).elim
  | eq => exact amade_bin hx hw "Equal" .equal (by decide +kernel) (by decide +kernel) (max_comm _ _) (alike_like (alike_symm h))
  | ne =>
    exact amade_bin hx hw "NotEqual" .notEqual (by decide +kernel) (by decide +kernel) (max_comm _ _)
      (alike_like (alike_symm h))
  | lt => exact amade_infix hx hw ">" .lessThan true (by decide +kernel) (by decide +kernel) rfl (alike_like h)
  | gt =>
    exact amade_infix hx hw "<" .lessThan false (by decide +kernel) (by decide +kernel) (max_comm _ _)
      (alike_like (alike_symm h))
  | le => exact amade_infix hx hw ">=" .lessOrEqual true (by decide +kernel) (by decide +kernel) rfl (alike_like h)
  | ge =>
    exact amade_infix hx hw "<=" .lessOrEqual false (by decide +kernel) (by decide +kernel) (max_comm _ _)
      (alike_like (alike_symm h))

theorem amade_powf {B : List Nat} {m n : Nat} (tx : Tot B m n x d) (ty : Tot B m n y d') (hx : Agr q x d) (hy : Agr q y d')
    (h : d' = 1 ∨ d' = d) : AMade q (powf x y) (max d d') := by
  simp only [powf, tot_ndim tx, tot_ndim ty, Option.bind_some, if_pos h]
  refine amade_bin hx hy "Powf" .powf (by decide +kernel) (by decide +kernel) rfl ?_
  show Like d d'
  unfold Like
  omega

/-- The class called by a method without argument. -/
def methodHead : PyM1 → String × Head1
  | .neg => ("Minus", .op .minus) | .abs => ("Abs", .op .abs) | .exp => ("Exp", .op .exp) | .log => ("Log", .op .log)
  | .xlogx => ("XLogX", .op .xLogX) | .cos => ("Cos", .op .cos) | .sin => ("Sin", .op .sin)
  | .sinxdivx => ("SinXDivX", .op .sinXDivX) | .asin => ("Asin", .op .asin) | .acos => ("Acos", .op .acos)
  | .atan => ("Atan", .op .atan) | .sqrt => ("Sqrt", .op .sqrt) | .rsqrt => ("Rsqrt", .op .rsqrt)
  | .square => ("Square", .op .square) | .sign => ("Sign", .op .sign) | .step => ("Step", .op .step)
  | .relu => ("ReLU", .op .relu) | .sqnorm2 => ("SqNorm2", .sqNorm2) | .norm2 => ("Norm2", .norm2)
  | .normalize => ("Normalize", .normalize) | .sum => ("Sum", .op .sum) | .min => ("Min", .op .min)
  | .max => ("Max", .op .max) | .argmin => ("ArgMin", .op .argMin) | .argmax => ("ArgMax", .op .argMax)

theorem methodHead_ok (f : PyM1) : goodName (methodHead f).1 = true ∧ find table1 (methodHead f).1.toList = some (methodHead f).2 := by
  cases f <;> decide +kernel

theorem methodHead_agree (f : PyM1) {t : Term} (h : TOk q t) : ((methodHead f).2.term t).dim = f.dim t.dim ∧
    TOk q ((methodHead f).2.term t) := by
  cases f <;> first | exact ⟨rfl, ⟨h.1, trivial⟩, h.2⟩ | exact ⟨rfl, h.1, h.2⟩

theorem methodHead_call (f : PyM1) (x : LExpr) : ∃ r, m1Call f x = mk (.unary (methodHead f).1.toList r [] x) := by
  cases f <;> exact ⟨_, rfl⟩

theorem amade_m1 (hx : Agr q x d) (f : PyM1) : AMade q (m1Call f x) (f.dim d) := by
  obtain ⟨r, hr⟩ := methodHead_call f x
  rw [hr]
  refine amade_head hx _ _ (methodHead_ok f).1 (methodHead_ok f).2 fun t e ha => ?_
  subst e
  exact methodHead_agree f ha

variable {B : List Nat} {m n : Nat}

theorem amade_elem (tx : Tot B m n x d) (hx : Agr q x d) {i : Int} (h : 0 ≤ i ∧ i < d) : AMade q (elem i x) 1 := by
  simp only [elem, tot_ndim tx, Option.bind_some]
  rw [if_neg (by omega)]
  exact amade_opts hx "Elem" (.elem i) [i] (by decide +kernel) (fun t => rfl) rfl h.2

theorem amade_extract (tx : Tot B m n x d) (hx : Agr q x d) {i c : Int} (h : 0 ≤ i ∧ 1 ≤ c ∧ i + c ≤ d) :
    AMade q (extract i c x) c.toNat := by
  simp only [extract, tot_ndim tx, Option.bind_some]
  rw [if_neg (by omega), if_neg (by omega)]
  refine amade_opts hx "Extract" (.extract i.toNat c.toNat) [i, c] (by decide +kernel) (fun t => ?_) rfl ?_
  · have h1 : 0 ≤ i ∧ 0 ≤ c := by omega
    simp [call, head1ii, h1]
  · show i.toNat + c.toNat ≤ d
    omega

theorem amade_mi (tx : Tot B m n x d) (hx : Agr q x d) {f : PyMi} (h : f.Fits d) (hp : ∀ D, f = .oneHot D → 0 < D) :
    AMade q (miCall f x) (f.dim d) := by
  cases f with
  | round c => exact amade_opts hx "Round" (.round c) [c] (by decide +kernel) (fun t => rfl) rfl trivial
  | elem i => exact amade_elem tx hx h
  | get i => exact amade_elem tx hx h
  | extract i c => exact amade_extract tx hx h
  | slice a b =>
    simp only [miCall, tot_ndim tx, Option.bind_some]
    simp only [PyMi.Fits] at h
    exact amade_extract tx hx ⟨h.1, by omega, by omega⟩
  | oneHot D =>
    obtain rfl : d = 1 := h
    simp only [miCall, tot_ndim tx, Option.bind_some, ne_eq, not_true_eq_false, if_false]
    exact amade_opts hx "OneHot" (.oneHot D) [(D : Int)] (by decide +kernel) (fun t => by simp [call, head1i]) rfl
      ⟨rfl, hp D rfl⟩

theorem amade_wsq (tx : Tot B m n x d) (tw : Tot B m n w.toLazy d') (hx : Agr q x d) (hw : Agr q w.toLazy d')
    (h : d' = 1 ∨ d' = d ∨ d' = d ^ 2) : AMade q (weightedsqnorm x w) 1 := by
  simp only [weightedsqnorm, tot_ndim tx, tot_ndim tw, Option.bind_some, if_pos h]
  refine amade_call hx hw "WeightedSqNorm" .weightedSqNorm (by decide +kernel) (by decide +kernel) fun t u e e' ha hb => ?_
  subst e e'
  refine ⟨rfl, ⟨hb.1, ha.1, ?_⟩, fun c => ⟨hb.2 c, ha.2 c⟩⟩
  rw [pow_two] at h
  exact h

theorem amade_dim (tx : Tot B m n x d) (ty : Tot B m n y d') (hx : Agr q x d) (hy : Agr q y d') (op : String) (b : Bin)
    (f : Nat → Nat → Nat) (hn : goodName op = true) (hf : find table2 op.toList = some (.op b)) {D : Nat}
    (hd : b.dim d d' = D) (ht : BinTakes b d d') (hb' : b ≠ .div := by intro h; cases h) :
    AMade q (dimOp op f x (.lazy y)) D := by
  simp only [dimOp, otherNdim, tot_ndim tx, tot_ndim ty, Option.bind_some]
  exact amade_bin hx hy op b hn hf hd ht hb'

theorem amade_m2 (tx : Tot B m n x d) (tw : Tot B m n w.toLazy d') (hx : Agr q x d) (hw : Agr q w.toLazy d')
    {f : PyM2} (h : f.Fits d d')
    (hl : f = .concat ∨ f = .matvecmult ∨ f = .vecmatmult ∨ f = .tensorprod → ∃ e, w = .lazy e) :
    AMade q (m2Call f x w) (f.dim d d') := by
  have px := tot_pos tx
  have pw := tot_pos tw
  cases f with
  | atan2 => exact amade_bin hx hw "Atan2" .atan2 (by decide +kernel) (by decide +kernel) rfl (alike_like h)
  | sqdist =>
    refine amade_call hx hw "SqDist" .sqDist (by decide +kernel) (by decide +kernel) fun t u e e' ha hb => ?_
    subst e e'
    exact ⟨rfl, ⟨ha.1, hb.1, alike_like h⟩, fun c => ⟨ha.2 c, hb.2 c⟩⟩
  | weightedsqnorm => exact amade_wsq tx tw hx hw h
  | concat =>
    obtain ⟨y, rfl⟩ := hl (by simp)
    exact amade_dim tx tw hx hw "Concat" .concat _ (by decide +kernel) (by decide +kernel) rfl trivial
  | matvecmult =>
    obtain ⟨y, rfl⟩ := hl (by simp)
    simp only [m2Call]
    split_ifs
    · exact fun v hv => by cases hv
    · exact amade_dim tx tw hx hw "MatVecMult" .matVecMult _ (by decide +kernel) (by decide +kernel) rfl h
  | vecmatmult =>
    obtain ⟨y, rfl⟩ := hl (by simp)
    simp only [m2Call]
    split_ifs
    · exact fun v hv => by cases hv
    · exact amade_dim tx tw hx hw "VecMatMult" .vecMatMult _ (by decide +kernel) (by decide +kernel) rfl h
  | tensorprod =>
    obtain ⟨y, rfl⟩ := hl (by simp)
    exact amade_dim tx tw hx hw "TensorProd" .tensorProd _ (by decide +kernel) (by decide +kernel) rfl trivial

theorem amade_ter {w' : Val} {d'' : Nat} (hx : Agr q x d) (hw : Agr q w.toLazy d') (hw' : Agr q w'.toLazy d'')
    (h : Alike [d, d', d'']) (op : String) (o : Tern) (hn : goodName op = true)
    (hf : find table3 op.toList = some (.op o)) : AMade q (terOp op x w w') (max (max d d') d'') := by
  refine amade_mk fun f T h1 hT => ?_
  obtain ⟨X, Y, Z, rfl, hX, hY, hZ⟩ := map_ter hT
  obtain ⟨t, ht, rfl, hat⟩ := hx f X h1.ter.1 hX
  obtain ⟨u, hu, rfl, hau⟩ := hw f Y h1.ter.2.1 hY
  obtain ⟨v, hv, rfl, hav⟩ := hw' f Z h1.ter.2.2 hZ
  exact ⟨.tern o t u v, .ter (goodName_isName hn) ht hu hv (by simp only [call, hf, Option.map_some, Head3.term]), rfl,
    ⟨hat.1, hau.1, hav.1, alike_pair h (by simp) (by simp), alike_pair h (by simp) (by simp),
      alike_pair h (by simp) (by simp)⟩, fun c => ⟨hat.2 c, hau.2 c, hav.2 c⟩⟩

theorem amade_m3 (hB : 0 ∉ B) {w' : Val} {d'' : Nat} (tx : Tot B m n x d) (tw : Tot B m n w.toLazy d')
    (tw' : Tot B m n w'.toLazy d'') (hx : Agr q x d) (hw : Agr q w.toLazy d') (hw' : Agr q w'.toLazy d'') {f : PyM3}
    (h : f.Fits d d' d'') : AMade q (m3Call f x w w') (f.dim d d' d'') := by
  have px := tot_pos tx
  cases f with
  | clamp =>
    have key : AMade q (terOp "Clamp" x w w') (max (max d d') d'') :=
      amade_ter hx hw hw' h "Clamp" .clamp (by decide +kernel) (by decide +kernel)
    cases w with
    | int a =>
      cases w' with
      | int b =>
        obtain ⟨L, hL, e, -⟩ := tw
        obtain ⟨L', hL', e', -⟩ := tw'
        obtain rfl := Option.some.inj hL
        obtain rfl := Option.some.inj hL'
        obtain rfl : 1 = d' := e
        obtain rfl : 1 = d'' := e'
        refine (amade_opts hx "ClampInt" (.clampInt a b) [a, b] (by decide +kernel) (fun t => rfl) rfl trivial).cast ?_
        show d = max (max d 1) 1
        omega
      | _ => exact key
    | _ => exact key
  | ifelse => exact amade_ter hx hw hw' h "IfElse" .ifElse (by decide +kernel) (by decide +kernel)
  | mod => exact amade_ter hx hw hw' h "Mod" .mod (by decide +kernel) (by decide +kernel)
  | weightedsqdist =>
    obtain ⟨r, hr, tr⟩ : Made B m n (sub x (.lazy w.toLazy)) (max d d') :=
      made_left hB tx (w := .lazy w.toLazy) tw (o := .sub) (by decide) h.1 (fun h => by cases h)
    have ha : AMade q (sub x (.lazy w.toLazy)) (max d d') :=
      amade_left tx (w := .lazy w.toLazy) tw hx hw (o := .sub) (by decide) h.1 (fun h => by cases h) fun _ h => by cases h
    obtain ⟨r', e', ar⟩ := ha _ hr
    cases e'
    simp only [m3Call, tot_mk tw, tot_mk tw', Option.bind_some, hr]
    exact amade_wsq tr (w := .lazy w'.toLazy) tw' ar hw' h.2

end

end

/-- What is proved of a program by induction. -/
theorem agr_of_fits {q : Prop} {B : List Nat} (hB : 0 ∉ B) {m n : Nat} {p : PyE} (h : p.Fits B m n) (hp : p.Pos) (hz : p.NoZero)
    (hl : p.LazyArgs) (hf : Fresh p) (hq : q → p.NoFraction) {v : Val} (hv : run p = some v) : Agr q v.toLazy p.dim := by
  have made : ∀ {o : Option Val} {d : Nat} {v : Val}, AMade q o d → o = some v → Agr q v.toLazy d := fun ha hv => by
    obtain ⟨e, rfl, h⟩ := ha _ hv
    exact h
  induction p generalizing m n v with
  | int k =>
    obtain rfl := Option.some.inj hv
    exact agr_int k
  | float id src q =>
    obtain rfl := Option.some.inj hv
    exact agr_leaf rfl
  | list id src len =>
    obtain rfl := Option.some.inj hv
    exact agr_leaf rfl
  | array id src shape =>
    obtain rfl := Option.some.inj hv
    exact agr_leaf rfl
  | lazy id src shape axis => exact made (amade_mk (agr_leaf rfl)) hv
  | m1 f x ih =>
    obtain ⟨u, hu, tu, lu⟩ := tot_of_fits hB h.2 hp hz hl
    have au := ih h.2 hp hz hl hf hq hu
    obtain ⟨e, rfl⟩ := lu h.1
    simp only [run, hu, Option.bind_some] at hv
    exact made (amade_m1 au f) hv
  | mi f x ih =>
    have hp' : x.Pos ∧ ∀ n, f = .oneHot n → 0 < n := by
      cases f
      case oneHot n =>
        refine ⟨hp.2, ?_⟩
        rintro _ ⟨⟩
        exact hp.1
      all_goals exact ⟨hp, fun _ h => by cases h⟩
    obtain ⟨u, hu, tu, lu⟩ := tot_of_fits hB h.2.1 hp'.1 hz hl
    have au := ih h.2.1 hp'.1 hz hl hf hq hu
    obtain ⟨e, rfl⟩ := lu h.1
    simp only [run, hu, Option.bind_some] at hv
    exact made (amade_mi tu au h.2.2 hp'.2) hv
  | op o x y ihx ihy =>
    obtain ⟨h0, hpow, h1, h2, hff⟩ := h
    have hz' := noZero_op hz
    obtain ⟨u, hu, tu, lu⟩ := tot_of_fits hB h1 hp.1 hz'.1 hl.1
    obtain ⟨w, hw, tw, lw⟩ := tot_of_fits hB h2 hp.2 hz'.2 hl.2
    have au := ihx h1 hp.1 hz'.1 hl.1 hf.1 (fun c => (hq c).1) hu
    have aw := ihy h2 hp.2 hz'.2 hl.2 hf.2 (fun c => (hq c).2.1) hw
    simp only [run, hu, hw, Option.bind_some] at hv
    refine made ?_ hv
    have hdiv : q → o = .div → Divides w.toLazy := fun c ho => by
      rcases (hq c).2.2 ho with hpar | hvar
      · cases y with
        | float id src r =>
          obtain rfl := Option.some.inj hw
          exact divides_leaf rfl
        | list id src len =>
          obtain rfl := Option.some.inj hw
          exact divides_leaf rfl
        | _ => exact hpar.elim
      · exact divides_of_sem (good_of_run hw hp.2 hz'.2 hl.2 hf.2).sem hvar
    by_cases ho : o = .pow
    · subst ho
      obtain ⟨lx, ey⟩ := hpow rfl
      obtain ⟨e, rfl⟩ := lu lx
      have px := tot_pos tu
      have hff : y.dim = 1 ∨ y.dim = x.dim := hff
      show AMade q (pow e w) (max x.dim y.dim)
      have un : ∀ (op : String) (o : Un), goodName op = true → find table1 op.toList = some (.op o) →
          o.dim x.dim = x.dim → UnTakes o x.dim → AMade q (un op e) x.dim := fun op o h1 h2 h3 h4 =>
        amade_head au op (.op o) h1 h2 fun t e ha => by
          refine ⟨?_, ⟨ha.1, ?_⟩, ha.2⟩
          · show o.dim t.dim = _
            rw [e, h3]
          · rw [e]
            exact h4
      cases y with
      | int k =>
        obtain rfl := Option.some.inj hw
        have : max x.dim (PyE.int k).dim = x.dim := max_eq_left px
        rw [this]
        simp only [pow]
        split_ifs
        · exact un "Square" .square (by decide +kernel) (by decide +kernel) rfl trivial
        · exact amade_opts au "Pow" (.pow k) [k] (by decide +kernel) (fun t => rfl) rfl trivial
      | float id src q =>
        obtain rfl := Option.some.inj hw
        have : max x.dim (PyE.float id src q).dim = x.dim := max_eq_left px
        simp only [pow]
        split_ifs
        · exact (un "Sqrt" .sqrt (by decide +kernel) (by decide +kernel) rfl trivial).cast this.symm
        · exact (un "Rsqrt" .rsqrt (by decide +kernel) (by decide +kernel) rfl trivial).cast this.symm
        · exact amade_powf tu tw au aw hff
      | list id src len => exact ey.elim
      | array id src shape => exact ey.elim
      | _ =>
        obtain ⟨e', rfl⟩ := lw trivial
        exact amade_powf tu tw au aw hff
    · by_cases lx : x.IsLazy
      · obtain ⟨e, rfl⟩ := lu lx
        refine amade_left tu tw au aw ho hff (fun h => ?_) hdiv
        subst h
        exact isZero_of hw hz.2.1 lw
      · obtain ⟨e, rfl⟩ := lw (h0.resolve_left lx)
        have hr : AMade q (right o u e) (o.dim x.dim y.dim) := by
          refine amade_right tu tw au aw ho hff (fun h => ?_) hdiv
          rcases h with h | h <;> subst h
          · exact isZero_of hu hz.1 lu
          · exact isZero_of hu hz.1 lu
        cases u with
        | lazy e' =>
          exfalso
          cases x with
          | int _ => cases hu
          | float _ _ _ => cases hu
          | list _ _ _ => cases hu
          | array _ _ _ => cases hu
          | _ => exact lx trivial
        | _ => exact hr
  | m2 f x y ihx ihy =>
    obtain ⟨u, hu, tu, lu⟩ := tot_of_fits hB h.2.1 hp.1 hz.1 hl.1
    obtain ⟨w, hw, tw, lw⟩ := tot_of_fits hB h.2.2.1 hp.2 hz.2 hl.2.1
    have au := ihx h.2.1 hp.1 hz.1 hl.1 hf.1 (fun c => (hq c).1) hu
    have aw := ihy h.2.2.1 hp.2 hz.2 hl.2.1 hf.2 (fun c => (hq c).2) hw
    obtain ⟨e, rfl⟩ := lu h.1
    simp only [run, hu, hw, Option.bind_some] at hv
    exact made (amade_m2 tu tw au aw h.2.2.2 fun h => lw (hl.2.2.1 h)) hv
  | m3 f x y z ihx ihy ihz =>
    obtain ⟨u, hu, tu, lu⟩ := tot_of_fits hB h.2.1 hp.1 hz.1 hl.1
    obtain ⟨w, hw, tw, lw⟩ := tot_of_fits hB h.2.2.1 hp.2.1 hz.2.1 hl.2.1
    obtain ⟨w', hw', tw', lw'⟩ := tot_of_fits hB h.2.2.2.1 hp.2.2 hz.2.2 hl.2.2
    have au := ihx h.2.1 hp.1 hz.1 hl.1 hf.1 (fun c => (hq c).1) hu
    have aw := ihy h.2.2.1 hp.2.1 hz.2.1 hl.2.1 hf.2.1 (fun c => (hq c).2.1) hw
    have aw' := ihz h.2.2.2.1 hp.2.2 hz.2.2 hl.2.2 hf.2.2 (fun c => (hq c).2.2) hw'
    obtain ⟨e, rfl⟩ := lu h.1
    simp only [run, hu, hw, hw', Option.bind_some] at hv
    exact made (amade_m3 hB tu tw tw' au aw aw' h.2.2.2.2) hv
  | t fresh x ih =>
    obtain ⟨u, hu, tu, lu⟩ := tot_of_fits hB h.2 hp hz hl
    have au := ih h.2 hp hz hl hf.1 hq hu
    obtain ⟨e, rfl⟩ := lu h.1
    simp only [run, hu, Option.bind_some] at hv
    exact made (amade_mk (agr_t au fresh)) hv

end Verif.Lazy
