import Verif.Spec.Cache
import Verif.Proofs.LazyText

/-!
# The keys determine the requests
-/

namespace Verif.Cache
open Alias (Str)
open Lazy (num)

/-! ## Reading the first field of a concatenation -/

/-- No word of the list is a proper prefix of another one. -/
def PrefixFree (S : List Str) : Prop := ∀ x ∈ S, ∀ y ∈ S, x <+: y → x = y

instance (S : List Str) : Decidable (PrefixFree S) := by unfold PrefixFree; infer_instance

theorem pf_split {S : List Str} (h : PrefixFree S) {x y t u : Str} (hx : x ∈ S) (hy : y ∈ S) (e : x ++ t = y ++ u) :
    x = y ∧ t = u := by
  have h1 : x <+: x ++ t := List.prefix_append _ _
  have h2 : y <+: x ++ t := e ▸ List.prefix_append _ _
  have : x = y := by
    rcases List.prefix_or_prefix_of_prefix h1 h2 with h' | h'
    · exact h x hx y hy h'
    · exact (h y hy x hx h').symm
  subst this
  exact ⟨rfl, List.append_cancel_left e⟩

theorem until_split {c : Char} : ∀ {a b t u : Str}, c ∉ a → c ∉ b → a ++ c :: t = b ++ c :: u → a = b ∧ t = u := by
  intro a
  induction a with
  | nil =>
    intro b u v _ hb e
    cases b with
    | nil => simpa using e
    | cons x b =>
      simp only [List.nil_append, List.cons_append, List.cons.injEq] at e
      exact absurd (e.1 ▸ List.mem_cons_self) hb
  | cons y a ih =>
    intro b u v ha hb e
    cases b with
    | nil =>
      simp only [List.nil_append, List.cons_append, List.cons.injEq] at e
      exact absurd (e.1 ▸ List.mem_cons_self) ha
    | cons x b =>
      simp only [List.cons_append, List.cons.injEq] at e
      obtain ⟨e1, e2⟩ := ih (fun m => ha (List.mem_cons_of_mem _ m)) (fun m => hb (List.mem_cons_of_mem _ m)) e.2
      exact ⟨by rw [e.1, e1], e2⟩

theorem all_split {p : Char → Bool} : ∀ {a b t u : Str}, (∀ c ∈ a, p c) → (∀ c ∈ b, p c) →
    (∀ c ∈ t.head?, ¬ p c) → (∀ c ∈ u.head?, ¬ p c) → a ++ t = b ++ u → a = b ∧ t = u := by
  intro a
  induction a with
  | nil =>
    intro b t u _ hb ht _ e
    cases b with
    | nil => exact ⟨rfl, e⟩
    | cons x b =>
      have := ht x (by rw [show t = _ from e]; simp)
      exact absurd (hb x List.mem_cons_self) this
  | cons y a ih =>
    intro b t u ha hb ht hu e
    cases b with
    | nil =>
      have := hu y (by rw [show u = y :: (a ++ t) from e.symm]; simp)
      exact absurd (ha y List.mem_cons_self) this
    | cons x b =>
      simp only [List.cons_append, List.cons.injEq] at e
      obtain ⟨e1, e2⟩ := ih (fun c m => ha c (List.mem_cons_of_mem _ m)) (fun c m => hb c (List.mem_cons_of_mem _ m))
        ht hu e.2
      exact ⟨by rw [e.1, e1], e2⟩

theorem num_split {m n : Nat} {t u : Str} (ht : NoDigit t) (hu : NoDigit u) (e : num m ++ t = num n ++ u) :
    m = n ∧ t = u := by
  obtain ⟨h1, h2⟩ := all_split (p := Char.isDigit) (fun c h => Lazy.isDigit_num h) (fun c h => Lazy.isDigit_num h)
    ht hu e
  exact ⟨Lazy.num_inj h1, h2⟩

theorem num_head (n : Nat) : ∃ c l, num n = c :: l ∧ c.isDigit := by
  cases h : num n with
  | nil => exact absurd h (Lazy.num_ne_nil n)
  | cons c l => exact ⟨c, l, rfl, Lazy.isDigit_num (n := n) (by rw [h]; exact List.mem_cons_self)⟩

theorem int_split {m n : Int} {t u : Str} (ht : NoDigit t) (hu : NoDigit u) (e : pyInt m ++ t = pyInt n ++ u) :
    m = n ∧ t = u := by
  cases m with
  | ofNat m =>
    cases n with
    | ofNat n =>
      obtain ⟨rfl, h⟩ := num_split ht hu e
      exact ⟨rfl, h⟩
    | negSucc n =>
      obtain ⟨c, l, hc, hd⟩ := num_head m
      simp only [pyInt, hc, List.cons_append, List.cons.injEq] at e
      rw [e.1] at hd
      exact absurd hd (by decide)
  | negSucc m =>
    cases n with
    | ofNat n =>
      obtain ⟨c, l, hc, hd⟩ := num_head n
      simp only [pyInt, hc, List.cons_append, List.cons.injEq] at e
      rw [← e.1] at hd
      exact absurd hd (by decide)
    | negSucc n =>
      simp only [pyInt, List.cons_append, List.cons.injEq, true_and] at e
      obtain ⟨h1, h⟩ := num_split ht hu e
      exact ⟨by rw [show m = n by omega], h⟩

theorem bal_split : ∀ {a b t u : Str} {d : Nat}, bal d a → bal d b → a ++ ')' :: t = b ++ ')' :: u →
    a = b ∧ t = u := by
  intro a
  induction a with
  | nil =>
    intro b t u d ha hb e
    cases b with
    | nil => simpa using e
    | cons x b =>
      simp only [List.nil_append, List.cons_append, List.cons.injEq] at e
      have hd : d = 0 := by simpa [bal] using ha
      rw [← e.1, bal, if_neg (by decide), if_pos rfl, hd] at hb
      simp at hb
  | cons y a ih =>
    intro b t u d ha hb e
    cases b with
    | nil =>
      simp only [List.nil_append, List.cons_append, List.cons.injEq] at e
      have hd : d = 0 := by simpa [bal] using hb
      rw [e.1, bal, if_neg (by decide), if_pos rfl, hd] at ha
      simp at ha
    | cons x b =>
      simp only [List.cons_append, List.cons.injEq] at e
      obtain ⟨rfl, e⟩ := e
      have : ∃ d', bal d' a ∧ bal d' b := by
        unfold bal at ha hb
        by_cases h1 : y = '('
        · rw [if_pos h1] at ha hb
          exact ⟨_, ha, hb⟩
        · rw [if_neg h1] at ha hb
          by_cases h2 : y = ')'
          · rw [if_pos h2, Bool.and_eq_true] at ha hb
            exact ⟨_, ha.2, hb.2⟩
          · rw [if_neg h2] at ha hb
            exact ⟨_, ha, hb⟩
      obtain ⟨d', h1, h2⟩ := this
      obtain ⟨e1, e2⟩ := ih h1 h2 e
      exact ⟨by rw [e1], e2⟩

theorem call_split {f g t u : Str} (hf : IsCall f) (hg : IsCall g) (e : f ++ t = g ++ u) : f = g ∧ t = u := by
  obtain ⟨c, n, b, rfl, _, hn, hb⟩ := hf
  obtain ⟨c', n', b', rfl, _, hn', hb'⟩ := hg
  simp only [List.append_assoc, List.cons_append, List.nil_append] at e
  obtain ⟨e1, e2⟩ := until_split (a := c :: n) (b := c' :: n') hn hn' e
  obtain ⟨e3, e4⟩ := bal_split hb hb' e2
  exact ⟨by rw [e1, e3], e4⟩

theorem rest_split : ∀ {l m : List Str} {t u : Str}, (∀ a ∈ l, '\'' ∉ a) → (∀ a ∈ m, '\'' ∉ a) →
    reprRest l ++ t = reprRest m ++ u → l = m ∧ t = u := by
  intro l
  induction l with
  | nil =>
    intro m t u _ _ e
    cases m with
    | nil => simpa [reprRest] using e
    | cons b m => simp [reprRest] at e
  | cons a l ih =>
    intro m t u hl hm e
    cases m with
    | nil => simp [reprRest] at e
    | cons b m =>
      simp only [reprRest, List.append_assoc, List.cons_append, List.cons.injEq, true_and] at e
      obtain ⟨e1, e2⟩ := until_split (hl a List.mem_cons_self) (hm b List.mem_cons_self) e
      obtain ⟨e3, e4⟩ := ih (fun a h => hl a (List.mem_cons_of_mem _ h)) (fun a h => hm a (List.mem_cons_of_mem _ h)) e2
      exact ⟨by rw [e1, e3], e4⟩

theorem list_split {l m : List Str} {t u : Str} (hl : ∀ a ∈ l, '\'' ∉ a) (hm : ∀ a ∈ m, '\'' ∉ a)
    (e : reprList l ++ t = reprList m ++ u) : l = m ∧ t = u := by
  cases l with
  | nil =>
    cases m with
    | nil => simpa [reprList] using e
    | cons b m => simp [reprList] at e
  | cons a l =>
    cases m with
    | nil => simp [reprList] at e
    | cons b m =>
      simp only [reprList, List.append_assoc, List.cons_append, List.cons.injEq, true_and] at e
      obtain ⟨e1, e2⟩ := until_split (hl a List.mem_cons_self) (hm b List.mem_cons_self) e
      obtain ⟨e3, e4⟩ := rest_split (fun a h => hl a (List.mem_cons_of_mem _ h))
        (fun a h => hm a (List.mem_cons_of_mem _ h)) e2
      exact ⟨by rw [e1, e3], e4⟩

theorem reprList_head (l : List Str) : ∃ t, reprList l = '[' :: t := by
  cases l <;> exact ⟨_, rfl⟩

theorem digit_inj {a b : Bool} (h : digit a = digit b) : a = b := by
  revert a b
  decide

theorem pyBool_split {a b : Bool} {t u : Str} (e : pyBool a ++ t = pyBool b ++ u) : a = b ∧ t = u := by
  have h := pf_split (S := [pyBool true, pyBool false]) (by decide +kernel) (by cases a <;> simp)
    (by cases b <;> simp) e
  have key : ∀ a b, pyBool a = pyBool b → a = b := by decide +kernel
  exact ⟨key a b h.1, h.2⟩

theorem word_split {S : List String} (h : PrefixFree (S.map String.toList)) {x y : String} {t u : Str} (hx : x ∈ S)
    (hy : y ∈ S) (e : x.toList ++ t = y.toList ++ u) : x = y ∧ t = u := by
  obtain ⟨h1, h2⟩ := pf_split h (List.mem_map_of_mem hx) (List.mem_map_of_mem hy) e
  exact ⟨String.toList_inj.mp h1, h2⟩

theorem noDigit_append {x t : Str} (h : NoDigit x) (hx : x ≠ []) : NoDigit (x ++ t) := by
  cases x with
  | nil => exact absurd rfl hx
  | cons c x =>
    intro d hd
    exact h d (by simpa using hd)

theorem noDigit_call {f t : Str} (h : IsCall f) : NoDigit (f ++ t) := by
  obtain ⟨c, n, b, rfl, hc, _, _⟩ := h
  intro d hd
  obtain rfl : c = d := by simpa using hd
  intro hd
  simp only [Char.isAlpha, Char.isUpper, Char.isLower, Char.isDigit, Bool.or_eq_true, Bool.and_eq_true,
    decide_eq_true_eq, UInt32.le_iff_toNat_le, ge_iff_le] at hc hd
  simp at hc hd
  omega

theorem noDigit_word {S : List String} (h : ∀ x ∈ S, NoDigit x.toList ∧ x.toList ≠ []) {x : String} (hx : x ∈ S)
    (t : Str) : NoDigit (x.toList ++ t) := noDigit_append (h x hx).1 (h x hx).2

instance (s : Str) : Decidable (NoDigit s) := by unfold NoDigit; infer_instance

theorem ranges_split {r s : Ranges} {t u : Str} (hr : ∀ t, r = .tuple t → bal 0 t) (hs : ∀ t, s = .tuple t → bal 0 t)
    (e : r.str ++ t = s.str ++ u) : r = s ∧ t = u := by
  cases r with
  | flag b =>
    cases s with
    | flag c =>
      obtain ⟨rfl, h⟩ := pyBool_split e
      exact ⟨rfl, h⟩
    | none =>
      exfalso
      have := congrArg List.head? e
      cases b <;> exact absurd this (by simp [Ranges.str, pyBool])
    | tuple v =>
      exfalso
      have := congrArg List.head? e
      cases b <;> exact absurd this (by simp [Ranges.str, pyBool])
  | none =>
    cases s with
    | flag c =>
      exfalso
      have := congrArg List.head? e
      cases c <;> exact absurd this (by simp [Ranges.str, pyBool])
    | none => exact ⟨rfl, List.append_cancel_left e⟩
    | tuple v =>
      exfalso
      have := congrArg List.head? e
      exact absurd this (by simp [Ranges.str])
  | tuple v =>
    cases s with
    | flag c =>
      exfalso
      have := congrArg List.head? e
      cases c <;> exact absurd this (by simp [Ranges.str, pyBool])
    | none =>
      exfalso
      have := congrArg List.head? e
      exact absurd this (by simp [Ranges.str])
    | tuple w =>
      simp only [Ranges.str, List.cons_append, List.append_assoc, List.nil_append, List.cons.injEq, true_and] at e
      obtain ⟨rfl, h⟩ := bal_split (hr v rfl) (hs w rfl) e
      exact ⟨rfl, h⟩

/-! ## The three keys -/

theorem flags_aux {a b c d f x y x' y' t u : Str} {k l m k' l' m' : Char} (hx : '\'' ∉ x) (hx' : '\'' ∉ x')
    (hy : '\'' ∉ y) (hy' : '\'' ∉ y')
    (e : (a ++ (x ++ '\'' :: (b ++ (y ++ '\'' :: (c ++ k :: (d ++ l :: (f ++ m :: ['}']))))))) ++ t =
      (a ++ (x' ++ '\'' :: (b ++ (y' ++ '\'' :: (c ++ k' :: (d ++ l' :: (f ++ m' :: ['}']))))))) ++ u) :
    x = x' ∧ y = y' ∧ k = k' ∧ l = l' ∧ m = m' ∧ t = u := by
  simp only [List.append_assoc, List.cons_append] at e
  replace e := List.append_cancel_left e
  obtain ⟨e1, e⟩ := until_split hx hx' e
  replace e := List.append_cancel_left e
  obtain ⟨e2, e⟩ := until_split hy hy' e
  replace e := List.append_cancel_left e
  obtain ⟨e3, e⟩ := List.cons.inj e
  replace e := List.append_cancel_left e
  obtain ⟨e4, e⟩ := List.cons.inj e
  replace e := List.append_cancel_left e
  obtain ⟨e5, e⟩ := List.cons.inj e
  exact ⟨e1, e2, e3, e4, e5, (List.cons.inj e).2⟩

theorem flags_split {r s : Req} {t u : Str} (hr : r.Wf) (hs : s.Wf) (e : r.flagsStr ++ t = s.flagsStr ++ u) :
    (r.dtypeAcc = s.dtypeAcc ∧ r.sumScheme = s.sumScheme ∧ r.fastMath = s.fastMath ∧ r.chunks = s.chunks ∧
      r.highdim = s.highdim) ∧ t = u := by
  have hq : ∀ x ∈ ["auto", "float16", "float32", "float64"], '\'' ∉ x.toList := by decide +kernel
  have hq' : ∀ x ∈ ["direct_sum", "block_sum", "kahan_scheme"], '\'' ∉ x.toList := by decide +kernel
  unfold Req.flagsStr at e
  obtain ⟨e1, e2, e3, e4, e5, e⟩ := flags_aux (hq _ hr.dtypeAcc) (hq _ hs.dtypeAcc) (hq' _ hr.sumScheme)
    (hq' _ hs.sumScheme) e
  exact ⟨⟨String.toList_inj.mp e1, String.toList_inj.mp e2, digit_inj e3, digit_inj e4, digit_inj e5⟩, e⟩

/-- The key of `Cache_partial` determines the request and the address. -/
theorem req_key_inj {a a' : Str} {r s : Req} (hr : r.Wf) (hs : s.Wf) (e : r.key a = s.key a') : r = s ∧ a = a' := by
  unfold Req.key at e
  obtain ⟨e1, e⟩ := List.cons.inj e
  obtain ⟨e2, e⟩ := List.cons.inj e
  obtain ⟨e3, e⟩ := List.cons.inj e
  obtain ⟨e4, e⟩ := ranges_split hr.ranges hs.ranges e
  obtain ⟨e5, e⟩ := int_split (noDigit_call hr.formula) (noDigit_call hs.formula) e
  obtain ⟨e6, e⟩ := call_split hr.formula hs.formula e
  obtain ⟨e7, e⟩ := list_split hr.aliases hs.aliases e
  have hd : ∀ x ∈ ["float16", "float32", "float64"], NoDigit x.toList ∧ x.toList ≠ [] := by decide +kernel
  obtain ⟨e8, e⟩ := num_split (noDigit_word hd hr.dtype _) (noDigit_word hd hs.dtype _) e
  obtain ⟨e9, e⟩ := word_split (by decide +kernel) hr.dtype hs.dtype e
  obtain ⟨e10, e⟩ := word_split (by decide +kernel) hr.lang hs.lang e
  obtain ⟨⟨e11, e12, e13, e14, e15⟩, e⟩ := flags_split hr hs e
  exact ⟨Req.ext (digit_inj e1) (digit_inj e2) (digit_inj e3) e4 e5 e6 e7 e8 e9 e10 e11 e12 e13 e14 e15, e⟩

/-- A well-formed argument of `get_keops_dll`. -/
structure DllReq.Wf (d : DllReq) : Prop where
  id : d.id ∈ ["CpuReduc", "CpuReduc_ranges", "GpuReduc1D", "GpuReduc1D_ranges", "GpuReduc2D", "GpuReduc2D_ranges"]
  formula : IsCall d.formula
  aliases : ∀ a ∈ d.aliases, '\'' ∉ a
  dtype : d.dtype ∈ ["float", "double", "half2"]
  dtypeAcc : d.dtypeAcc ∈ ["float", "double", "float2", "half2"]
  sumScheme : d.sumScheme ∈ ["direct_sum", "block_sum", "kahan_scheme"]

theorem acc_split {x y s s' : String} {t u : Str} (hx : x ∈ ["float", "double", "float2", "half2"])
    (hy : y ∈ ["float", "double", "float2", "half2"]) (hs : s ∈ ["direct_sum", "block_sum", "kahan_scheme"])
    (hs' : s' ∈ ["direct_sum", "block_sum", "kahan_scheme"])
    (e : x.toList ++ (s.toList ++ t) = y.toList ++ (s'.toList ++ u)) : x = y ∧ s = s' ∧ t = u := by
  have h := pf_split (S := (["float", "double", "float2", "half2"].map String.toList).flatMap
    (fun x => (["direct_sum", "block_sum", "kahan_scheme"].map String.toList).map (x ++ ·))) (by decide +kernel)
    (x := x.toList ++ s.toList) (y := y.toList ++ s'.toList) (t := t) (u := u)
    (List.mem_flatMap.mpr ⟨_, List.mem_map_of_mem hx, List.mem_map_of_mem (List.mem_map_of_mem hs)⟩)
    (List.mem_flatMap.mpr ⟨_, List.mem_map_of_mem hy, List.mem_map_of_mem (List.mem_map_of_mem hs')⟩)
    (by simpa using e)
  have key : ∀ x ∈ ["float", "double", "float2", "half2"], ∀ y ∈ ["float", "double", "float2", "half2"],
      ∀ s ∈ ["direct_sum", "block_sum", "kahan_scheme"], ∀ s' ∈ ["direct_sum", "block_sum", "kahan_scheme"],
      x.toList ++ s.toList = y.toList ++ s'.toList → x = y ∧ s = s' := by decide +kernel
  obtain ⟨h1, h2⟩ := key x hx y hy s hs s' hs' h.1
  exact ⟨h1, h2, h.2⟩

theorem env_inj {e e' : Env} (h : e.str = e'.str) : e = e' := by
  obtain ⟨f, b⟩ := e
  obtain ⟨f', b'⟩ := e'
  simp only [Env.str] at h
  have hb : b = b' := by
    have h2 := congrArg (fun l => l.reverse.take 4) h
    simp only [List.reverse_append, List.append_assoc] at h2
    have t4 : ∀ (b : Bool) (t : Str), ((pyBool b).reverse ++ t).take 4 = (pyBool b).reverse.take 4 := by
      intro b t
      rw [List.take_append_of_le_length]
      cases b <;> decide +kernel
    rw [t4, t4] at h2
    have key : ∀ b b', (pyBool b).reverse.take 4 = (pyBool b').reverse.take 4 → b = b' := by decide +kernel
    exact key b b' h2
  subst hb
  exact congrArg (Env.mk · b) (List.append_cancel_right h)

theorem id_split {x y : String} {f g t u : Str}
    (hx : x ∈ ["CpuReduc", "CpuReduc_ranges", "GpuReduc1D", "GpuReduc1D_ranges", "GpuReduc2D", "GpuReduc2D_ranges"])
    (hy : y ∈ ["CpuReduc", "CpuReduc_ranges", "GpuReduc1D", "GpuReduc1D_ranges", "GpuReduc2D", "GpuReduc2D_ranges"])
    (hf : IsCall f) (hg : IsCall g) (e : x.toList ++ (f ++ t) = y.toList ++ (g ++ u)) : x = y ∧ f ++ t = g ++ u := by
  have hd : ∀ f t : Str, IsCall f → (f ++ t).head? ≠ some '_' := by
    rintro _ t ⟨c, n, b, rfl, hc, _, _⟩ h
    obtain rfl : c = '_' := by simpa using h
    exact absurd hc (by decide)
  have key : ∀ x ∈ ["CpuReduc", "CpuReduc_ranges", "GpuReduc1D", "GpuReduc1D_ranges", "GpuReduc2D",
      "GpuReduc2D_ranges"], ∀ y ∈ ["CpuReduc", "CpuReduc_ranges", "GpuReduc1D", "GpuReduc1D_ranges", "GpuReduc2D",
      "GpuReduc2D_ranges"], x.toList <+: y.toList → x = y ∨ (y.toList.drop x.toList.length).head? = some '_' := by
    decide +kernel
  have main : ∀ (x y : String) (v w : Str), x.toList <+: y.toList →
      (x = y ∨ (y.toList.drop x.toList.length).head? = some '_') → v.head? ≠ some '_' →
      x.toList ++ v = y.toList ++ w → x = y := by
    intro x y v w hp hk hv he
    rcases hk with h | h
    · exact h
    · exfalso
      obtain ⟨z, hz⟩ := hp
      rw [← hz, List.drop_left] at h
      rw [← hz, List.append_assoc] at he
      rw [List.append_cancel_left he] at hv
      cases z with
      | nil => simp at h
      | cons c z => exact hv (by simpa using h)
  have h1 : x.toList <+: x.toList ++ (f ++ t) := List.prefix_append _ _
  have h2 : y.toList <+: x.toList ++ (f ++ t) := e ▸ List.prefix_append _ _
  have : x = y := by
    rcases List.prefix_or_prefix_of_prefix h1 h2 with h' | h'
    · exact main x y _ _ h' (key x hx y hy h') (hd f t hf) e
    · exact (main y x _ _ h' (key y hy x hx h') (hd g u hg) e.symm).symm
  subst this
  exact ⟨rfl, List.append_cancel_left e⟩

/-- The end of the keys of `Cache` and of `LinkCompile`, from the aliases on. -/
theorem tail_split {as as' : List Str} {n n' : Nat} {c c' acc acc' s s' : String} {x y z x' y' z' h h' f f' : Bool}
    {v v' : Int} {t u : Str} (ha : ∀ a ∈ as, '\'' ∉ a) (ha' : ∀ a ∈ as', '\'' ∉ a)
    (hc : c ∈ ["float", "double", "half2"]) (hc' : c' ∈ ["float", "double", "half2"])
    (hacc : acc ∈ ["float", "double", "float2", "half2"]) (hacc' : acc' ∈ ["float", "double", "float2", "half2"])
    (hs : s ∈ ["direct_sum", "block_sum", "kahan_scheme"]) (hs' : s' ∈ ["direct_sum", "block_sum", "kahan_scheme"])
    (ht : NoDigit t) (hu : NoDigit u)
    (e : reprList as ++ (num n ++ (c.toList ++ (acc.toList ++ (s.toList ++ digit x :: digit y :: digit z ::
        (pyBool h ++ digit f :: (pyInt v ++ t)))))) =
      reprList as' ++ (num n' ++ (c'.toList ++ (acc'.toList ++ (s'.toList ++ digit x' :: digit y' :: digit z' ::
        (pyBool h' ++ digit f' :: (pyInt v' ++ u))))))) :
    (as = as' ∧ n = n' ∧ c = c' ∧ acc = acc' ∧ s = s' ∧ x = x' ∧ y = y' ∧ z = z' ∧ h = h' ∧ f = f' ∧ v = v') ∧
      t = u := by
  obtain ⟨e1, e⟩ := list_split ha ha' e
  have hd : ∀ x ∈ ["float", "double", "half2"], NoDigit x.toList ∧ x.toList ≠ [] := by decide +kernel
  obtain ⟨e2, e⟩ := num_split (noDigit_word hd hc _) (noDigit_word hd hc' _) e
  obtain ⟨e3, e⟩ := word_split (by decide +kernel) hc hc' e
  obtain ⟨e4, e5, e⟩ := acc_split hacc hacc' hs hs' e
  obtain ⟨e6, e⟩ := List.cons.inj e
  obtain ⟨e7, e⟩ := List.cons.inj e
  obtain ⟨e8, e⟩ := List.cons.inj e
  obtain ⟨e9, e⟩ := pyBool_split e
  obtain ⟨e10, e⟩ := List.cons.inj e
  obtain ⟨e11, e⟩ := int_split ht hu e
  exact ⟨⟨e1, e2, e3, e4, e5, digit_inj e6, digit_inj e7, digit_inj e8, e9, digit_inj e10, e11⟩, e⟩

theorem noDigit_env {e : Env} (h : e.Wf) : NoDigit e.str := by
  unfold Env.str
  cases hf : e.flags with
  | nil =>
    rw [List.nil_append]
    exact noDigit_append (by decide +kernel) (by decide +kernel)
  | cons c l =>
    exact noDigit_append (hf ▸ h) (by simp)

/-- The key of `Cache` determines the request and the settings. -/
theorem dll_key_inj {e e' : Env} {d d' : DllReq} (he : e.Wf) (he' : e'.Wf) (hd : d.Wf) (hd' : d'.Wf)
    (h : d.key e = d'.key e') : d = d' ∧ e = e' := by
  unfold DllReq.key at h
  obtain ⟨e1, h⟩ := id_split hd.id hd'.id hd.formula hd'.formula h
  obtain ⟨e2, h⟩ := call_split hd.formula hd'.formula h
  obtain ⟨e3, h⟩ := List.cons.inj h
  obtain ⟨_, h⟩ := List.cons.inj h
  obtain ⟨_, h⟩ := List.cons.inj h
  obtain ⟨e4, h⟩ := List.cons.inj h
  obtain ⟨⟨e5, e6, e7, e8, e9, e10, e11, e12, e13, e14, e15⟩, h⟩ := tail_split hd.aliases hd'.aliases hd.dtype
    hd'.dtype hd.dtypeAcc hd'.dtypeAcc hd.sumScheme hd'.sumScheme (noDigit_env he) (noDigit_env he') h
  exact ⟨DllReq.ext e1 e2 (digit_inj e3) (digit_inj e4) e5 e6 e7 e8 e9 e10 e11 e12 e13 e14 e15, env_inj h⟩

/-- A well-formed job. -/
structure Job.Wf (j : Job) : Prop where
  cls : ∃ a, j.cls = a ++ ['>'] ∧ '>' ∉ a
  text : IsCall j.text
  formula : IsCall j.formula
  aliases : ∀ a ∈ j.aliases, '\'' ∉ a
  dtype : j.dtype ∈ ["float", "double", "half2"]
  dtypeAcc : j.dtypeAcc ∈ ["float", "double", "float2", "half2"]
  sumScheme : j.sumScheme ∈ ["direct_sum", "block_sum", "kahan_scheme"]

/-- The hashed string determines the job and the flags. -/
theorem job_key_inj {i i' : Str} {j j' : Job} (hi : NoDigit i) (hi' : NoDigit i') (hj : j.Wf) (hj' : j'.Wf)
    (h : j.key i = j'.key i') : j = j' ∧ i = i' := by
  unfold Job.key at h
  obtain ⟨a, ha, han⟩ := hj.cls
  obtain ⟨a', ha', han'⟩ := hj'.cls
  rw [ha, ha', List.append_assoc, List.append_assoc] at h
  obtain ⟨e1, h⟩ := until_split han han' h
  obtain ⟨e2, h⟩ := call_split hj.text hj'.text h
  obtain ⟨e3, h⟩ := call_split hj.formula hj'.formula h
  obtain ⟨⟨e5, e6, e7, e8, e9, e10, e11, e12, e13, e14, e15⟩, h⟩ := tail_split hj.aliases hj'.aliases hj.dtype
    hj'.dtype hj.dtypeAcc hj'.dtypeAcc hj.sumScheme hj'.sumScheme hi hi' h
  exact ⟨Job.ext (by rw [ha, ha', e1]) e2 e3 e5 e6 e7 e8 e9 e10 e11 e12 e13 e14 e15, h⟩

end Verif.Cache
