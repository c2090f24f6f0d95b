import Verif.Proofs.CacheInv

/-!
# C31: a cached routine is only reused for the same computation
-/

namespace Verif.Cache
open Alias (Str)

variable {Info Code : Type} {g : Gen Info Code}

/-! ## The keys -/

/-- **C31, keys of `LoadKeOps`**: two requests that differ in the formula, the aliases, the number of arguments, the
data type, the language, the device, the ranges or an option have different keys. -/
theorem C31_key_load {a a' : Str} {r s : Req} (hr : r.Wf) (hs : s.Wf) (h : r ≠ s) : r.key a ≠ s.key a' :=
  fun e => h (req_key_inj hr hs e).1

/-- **C31, keys of `get_keops_dll`**: the same for the requests that the first ones lead to; the settings are part of
the key. -/
theorem C31_key_dll {e e' : Env} {r s : Req} {d d' : DllReq} (he : e.Wf) (he' : e'.Wf) (hr : r.Wf) (hs : s.Wf)
    (hd : r.toDll = some d) (hd' : s.toDll = some d') (h : d ≠ d' ∨ e ≠ e') : d.key e ≠ d'.key e' := fun hk => by
  obtain ⟨h1, h2⟩ := dll_key_inj he he' (toDll_wf hr hd) (toDll_wf hs hd') hk
  exact h.elim (· h1) (· h2)

/-- **C31, names of the files**: the same for the strings that are hashed to name the files. -/
theorem C31_key_file (hg : g.Wf) {i i' : Str} {e e' : Env} {r s : Req} {d d' : DllReq} {j j' : Job} (hi : NoDigit i)
    (hi' : NoDigit i') (hr : r.Wf) (hs : s.Wf) (hd : r.toDll = some d) (hd' : s.toDll = some d')
    (hj : g.job e d = some j) (hj' : g.job e' d' = some j') (h : j ≠ j') : j.key i ≠ j'.key i' := fun hk =>
  h (job_key_inj hi hi' (job_wf hg (toDll_wf hr hd) hj) (job_wf hg (toDll_wf hs hd') hj') hk).1

/-! ## Histories -/

theorem seen_append (p : Str × Env) (h : List Event) (ev : Event) : ∀ q ∈ seen p h, q ∈ seen p (h ++ [ev]) := by
  induction h generalizing p with
  | nil => simp [seen]
  | cons e h ih =>
    intro q hq
    simp only [seen, List.cons_append, List.mem_cons] at hq ⊢
    exact hq.imp_right (ih _ q)

theorem imports_append (i : Str) (h : List Event) (r : Req) :
    ∀ k ∈ imports i h, k ∈ imports i (h ++ [.request r]) := by
  induction h generalizing i with
  | nil => simp [imports]
  | cons e h ih =>
    intro q hq
    cases e <;>
    · simp only [imports, List.cons_append, List.mem_cons] at hq ⊢
      exact hq.imp_right (ih _ q)

theorem seen_wf {p : Str × Env} {h : List Event} (hp : p.2.Wf) (hh : ∀ ev ∈ h, ev.Wf) :
    ∀ q ∈ seen p h, q.2.Wf := by
  induction h generalizing p with
  | nil => simpa [seen] using hp
  | cons ev h ih =>
    intro q hq
    have h1 := hh ev List.mem_cons_self
    rcases List.mem_cons.mp hq with rfl | hq
    · exact hp
    · refine ih ?_ (fun ev hev => hh ev (List.mem_cons_of_mem _ hev)) q hq
      cases ev with
      | request r => exact hp
      | setEnv e => exact h1
      | exit a i e => exact h1.2
      | kill a i e => exact h1.2
      | clean => exact hp

theorem imports_wf {i : Str} {h : List Event} (hi : NoDigit i) (hh : ∀ ev ∈ h, ev.Wf) :
    ∀ k ∈ imports i h, NoDigit k := by
  induction h generalizing i with
  | nil => simpa [imports] using hi
  | cons ev h ih =>
    intro k hk
    have h1 := hh ev List.mem_cons_self
    have ht : ∀ ev ∈ h, ev.Wf := fun ev hev => hh ev (List.mem_cons_of_mem _ hev)
    cases ev with
    | request r => exact (List.mem_cons.mp hk).elim (· ▸ hi) (ih hi ht k)
    | setEnv e => exact (List.mem_cons.mp hk).elim (· ▸ hi) (ih hi ht k)
    | exit a j e => exact (List.mem_cons.mp hk).elim (· ▸ hi) (ih h1.1 ht k)
    | kill a j e => exact (List.mem_cons.mp hk).elim (· ▸ hi) (ih h1.1 ht k)
    | clean => exact (List.mem_cons.mp hk).elim (· ▸ hi) (ih hi ht k)

theorem requests_wf {h : List Event} (hh : ∀ ev ∈ h, ev.Wf) : ∀ r ∈ requests h, r.Wf := by
  intro r hr
  obtain ⟨ev, hev, he⟩ := List.mem_filterMap.mp hr
  cases ev <;> simp at he
  subst he
  exact hh _ hev

/-- The scope of a history followed by a request. -/
def scopeOf (a i : Str) (e : Env) (h : List Event) (r : Req) : Scope :=
  ⟨(· ∈ requests (h ++ [.request r])), (· ∈ seen (a, e) h), (· ∈ imports i h)⟩

theorem scopeOf_spec (hg : g.Wf) {a i : Str} {e : Env} {h : List Event} {r : Req} (hi : NoDigit i) (he : e.Wf)
    (hh : ∀ ev ∈ h, ev.Wf) (hr : r.Wf) (hc : NoCollision g a i e (h ++ [.request r])) :
    (scopeOf a i e h r).Ok g ∧ Inv g (scopeOf a i e h r) (after g (fresh Info Code a i e) h) ∧
      ((after g (fresh Info Code a i e) h).addr, (after g (fresh Info Code a i e) h).env) = now (a, e) h := by
  have hok : (scopeOf a i e h r).Ok g := by
    refine ⟨requests_wf fun ev hev => ?_, seen_wf he hh, imports_wf hi hh, ?_⟩
    · rcases List.mem_append.mp hev with hev | hev
      · exact hh ev hev
      · rw [List.mem_singleton] at hev
        rw [hev]
        exact hr
    · rintro e d j i e' d' j' i' ⟨⟨r1, hr1, hd1⟩, ⟨a1, ha1⟩, hj1⟩ ⟨⟨r2, hr2, hd2⟩, ⟨a2, ha2⟩, hj2⟩ h1 h2 heq
      exact hc _ _ ⟨r1, hr1, _, seen_append _ _ _ _ ha1, _, imports_append _ _ _ _ h1, d, j, hd1, hj1, rfl⟩
        ⟨r2, hr2, _, seen_append _ _ _ _ ha2, _, imports_append _ _ _ _ h2, d', j', hd2, hj2, rfl⟩ heq
  have hmem : (scopeOf a i e h r).P (a, e) := by
    show (a, e) ∈ seen (a, e) h
    cases h <;> simp [seen]
  have himem : (scopeOf a i e h r).I i := by
    show i ∈ imports i h
    cases h with
    | nil => simp [imports]
    | cons ev h => cases ev <;> simp [imports]
  obtain ⟨h1, h2⟩ := after_inv (h := h) (s := fresh Info Code a i e) hg hok
    ⟨hmem, himem, by simp [fresh], by simp [fresh], by simp [fresh], by simp [fresh], by simp [fresh],
      by simp [fresh]⟩
    (fun q hq => by
      show q ∈ requests (h ++ [.request r])
      rw [requests, List.filterMap_append]
      exact List.mem_append_left _ hq)
    (fun p hp => hp) (fun k hk => hk)
  exact ⟨hok, h1, h2⟩

/-- **C31**: after any history of requests, of changes of the settings, of processes that end or are killed and of
cleanings of the build folder, the answer to a request is the code and the information generated for this request,
under settings that the present process (or an earlier one with the same address) has had. The hypothesis is that the
40 bits hash has no collision among the strings hashed during the history. -/
theorem C31_routine (hg : g.Wf) {a i : Str} {e : Env} {h : List Event} {r : Req} (hi : NoDigit i) (he : e.Wf)
    (hh : ∀ ev ∈ h, ev.Wf) (hr : r.Wf) (hc : NoCollision g a i e (h ++ [.request r])) {o : Obj Info Code}
    (ho : (step g (after g (fresh Info Code a i e) h) (.request r)).1 = some o) :
    ∃ e', ((now (a, e) h).1, e') ∈ seen (a, e) h ∧ Serves g e' r o := by
  obtain ⟨h1, h2, h3⟩ := scopeOf_spec hg hi he hh hr hc
  obtain ⟨_, _, _, _, h4, _⟩ := request_spec hg h1 h2 (r := r)
    (show r ∈ requests (h ++ [.request r]) by simp [requests, List.filterMap_append])
  obtain ⟨e', h5, h6⟩ := h4 o ho
  refine ⟨e', ?_, h6⟩
  rw [← h3]
  exact h5

/-- A request that is valid under the present settings gets an answer. -/
theorem C31_answer (hg : g.Wf) {a i : Str} {e : Env} {h : List Event} {r : Req} (hi : NoDigit i) (he : e.Wf)
    (hh : ∀ ev ∈ h, ev.Wf) (hr : r.Wf) (hc : NoCollision g a i e (h ++ [.request r])) {d : DllReq} {j : Job}
    (hd : r.toDll = some d) (hj : g.job (now (a, e) h).2 d = some j) :
    ∃ o, (step g (after g (fresh Info Code a i e) h) (.request r)).1 = some o := by
  obtain ⟨h1, h2, h3⟩ := scopeOf_spec hg hi he hh hr hc
  obtain ⟨_, _, _, _, _, h4⟩ := request_spec hg h1 h2 (r := r)
    (show r ∈ requests (h ++ [.request r]) by simp [requests, List.filterMap_append])
  refine h4 d j hd ?_
  rw [← h3] at hj
  exact hj

/-- If a process never changes its settings (and two processes with the same address have the same settings), the
answer is the one for the present settings. -/
theorem C31_settings_partial (hg : g.Wf) {a i : Str} {e : Env} {h : List Event} {r : Req} (hi : NoDigit i) (he : e.Wf)
    (hh : ∀ ev ∈ h, ev.Wf) (hr : r.Wf) (hc : NoCollision g a i e (h ++ [.request r]))
    (hs : ∀ p ∈ seen (a, e) h, ∀ q ∈ seen (a, e) h, p.1 = q.1 → p.2 = q.2) {o : Obj Info Code}
    (ho : (step g (after g (fresh Info Code a i e) h) (.request r)).1 = some o) :
    Serves g (now (a, e) h).2 r o := by
  obtain ⟨e', h1, h2⟩ := C31_routine hg hi he hh hr hc ho
  obtain ⟨_, h3, h4⟩ := scopeOf_spec hg hi he hh hr hc
  have h5 : now (a, e) h ∈ seen (a, e) h := h4 ▸ h3.now
  rwa [hs _ h5 _ h1 rfl]

/-- **C31 for formulas**: the parsed reduction returned for a formula is the one of this formula, with these aliases
and this setting, whatever has been parsed before. -/
theorem C31_formula {Red : Type} {hash : Str → Str} {parse : Str → List Str → Bool → Red}
    {calls : List (Str × List Str × Bool)} (hw : ∀ c ∈ calls, IsCall c.1 ∧ ∀ x ∈ c.2.1, '\'' ∉ x)
    (hc : ∀ c ∈ calls, ∀ c' ∈ calls, hash (c.1 ++ (reprList c.2.1 ++ pyBool c.2.2)) =
        hash (c'.1 ++ (reprList c'.2.1 ++ pyBool c'.2.2)) →
      c.1 ++ (reprList c.2.1 ++ pyBool c.2.2) = c'.1 ++ (reprList c'.2.1 ++ pyBool c'.2.2))
    {n : Nat} {c : Str × List Str × Bool} (hn : calls[n]? = some c) :
    (getReduction hash parse ((calls.take n).foldl (fun lib c => (getReduction hash parse lib c.1 c.2.1 c.2.2).2) [])
      c.1 c.2.1 c.2.2).1 = parse c.1 c.2.1 c.2.2 := by
  let key : Str × List Str × Bool → Str := fun c => c.1 ++ (reprList c.2.1 ++ pyBool c.2.2)
  have inj : ∀ c ∈ calls, ∀ c' ∈ calls, hash (key c) = hash (key c') → c = c' := by
    intro c h c' h' e
    obtain ⟨e1, e2⟩ := call_split (hw c h).1 (hw c' h').1 (hc c h c' h' e)
    obtain ⟨e3, e4⟩ := list_split (hw c h).2 (hw c' h').2 e2
    have e5 := (pyBool_split (t := []) (u := []) (by simpa using e4)).1
    exact Prod.ext e1 (Prod.ext e3 e5)
  have inv : ∀ (l : List (Str × List Str × Bool)) (lib : List (Str × Red)), (∀ c ∈ l, c ∈ calls) →
      (∀ k v, (k, v) ∈ lib → ∃ c ∈ calls, k = hash (key c) ∧ v = parse c.1 c.2.1 c.2.2) →
      ∀ k v, (k, v) ∈ l.foldl (fun lib c => (getReduction hash parse lib c.1 c.2.1 c.2.2).2) lib →
        ∃ c ∈ calls, k = hash (key c) ∧ v = parse c.1 c.2.1 c.2.2 := by
    intro l
    induction l with
    | nil => exact fun lib _ h => h
    | cons c l ih =>
      intro lib hl h
      refine ih _ (fun c hc => hl c (List.mem_cons_of_mem _ hc)) fun k v hk => ?_
      unfold getReduction at hk
      dsimp only at hk
      split at hk
      · exact h k v hk
      · rcases List.mem_cons.mp hk with hk | hk
        · obtain ⟨rfl, rfl⟩ := Prod.mk.inj hk
          exact ⟨c, hl c List.mem_cons_self, rfl, rfl⟩
        · exact h k v hk
  have hlib := inv (calls.take n) [] (fun c hc => List.mem_of_mem_take hc) (by simp)
  unfold getReduction
  dsimp only
  split
  · rename_i x hx
    obtain ⟨c', hc', h1, h2⟩ := hlib _ _ (mem_of_lookup hx)
    obtain rfl := inj c (List.mem_of_getElem? hn) c' hc' h1
    exact h2
  · rfl

/-! ## The settings are not part of the key of `LoadKeOps` -/

/-- A generator whose code is the printed reduction, which depends on the setting `auto_factorize`. -/
def exGen : Gen Unit Str where
  cls := fun _ _ => some ['C', '>']
  text := fun b _ _ => if b then ['S', '(', 'y', ')'] else ['S', '(', 'x', ')']
  hash := id
  info := fun _ => ()
  code := Job.text

/-- A request. -/
def exReq : Req where
  gpu := false
  twoD := false
  device := false
  ranges := .flag false
  deviceId := -1
  formula := ['S', '(', 'x', ')']
  aliases := [['x', '=', 'V', 'i', '(', '0', ',', '3', ')']]
  nargs := 1
  dtype := "float32"
  lang := "torch"
  dtypeAcc := "auto"
  sumScheme := "block_sum"
  fastMath := false
  chunks := true
  highdim := false

theorem exCall : IsCall ['S', '(', 'x', ')'] :=
  ⟨'S', [], ['x'], rfl, by decide, by decide, by decide⟩

theorem exReq_wf : exReq.Wf :=
  ⟨exCall, by decide +kernel, by simp [exReq], by decide +kernel, by decide +kernel, by decide +kernel,
    by decide +kernel⟩

theorem exGen_wf : exGen.Wf := by
  refine ⟨fun e d c h => ⟨['C'], ?_, by decide⟩, fun b f as _ => ?_⟩
  · simpa [exGen] using h.symm
  · cases b
    · exact exCall
    · exact ⟨'S', [], ['y'], rfl, by decide, by decide, by decide⟩

theorem exHash (a i : Str) (e : Env) (h : List Event) : NoCollision exGen a i e h := fun _ _ _ _ h => h

/-- The hypotheses of `C31_routine` and `C31_answer` hold for histories with several processes. -/
example : ∃ o, (step exGen (after exGen (fresh Unit Str ['a'] [] ⟨[], false⟩)
    [.request exReq, .exit ['b'] [] ⟨[], true⟩, .request exReq, .clean, .kill ['c'] [] ⟨[], true⟩]) (.request exReq)).1 =
      some o ∧ o.code = ['S', '(', 'y', ')'] := by
  have hd : ∃ d, exReq.toDll = some d := by
    rw [← Option.isSome_iff_exists]
    decide +kernel
  obtain ⟨d, hd⟩ := hd
  have hn : ∀ s : Str, s = [] → NoDigit s := by rintro _ rfl; decide
  have hh : ∀ ev ∈ [Event.request exReq, .exit ['b'] [] ⟨[], true⟩, .request exReq, .clean,
      .kill ['c'] [] ⟨[], true⟩], ev.Wf := by
    simp only [List.mem_cons, List.not_mem_nil, or_false, forall_eq_or_imp, forall_eq]
    exact ⟨exReq_wf, ⟨hn _ rfl, hn _ rfl⟩, exReq_wf, trivial, hn _ rfl, hn _ rfl⟩
  obtain ⟨o, ho⟩ := C31_answer (g := exGen) exGen_wf (a := ['a']) (i := []) (e := ⟨[], false⟩) (r := exReq) (hn _ rfl)
    (hn _ rfl) hh exReq_wf (exHash _ _ _ _) hd rfl
  have := C31_settings_partial (g := exGen) exGen_wf (a := ['a']) (i := []) (e := ⟨[], false⟩) (r := exReq) (hn _ rfl)
    (hn _ rfl) hh exReq_wf (exHash _ _ _ _) (by decide) ho
  obtain ⟨d', j, hd', hj, _, _, hc⟩ := this
  refine ⟨o, ho, hc.trans ?_⟩
  simp only [exGen, Gen.job, Option.map_some, Option.some.injEq] at hj
  rw [← hj]
  rfl

/-- **Negation of C31 for the settings**: `Cache_partial` puts the representation of the function `env_param` in its
keys instead of its value. In one process, a request made again after `auto_factorize` has been changed gets the code
generated under the old setting. -/
theorem not_C31_settings : ∃ o,
    (step exGen (after exGen (fresh Unit Str ['a'] [] ⟨[], false⟩) [.request exReq, .setEnv ⟨[], true⟩])
      (.request exReq)).1 = some o ∧ Serves exGen ⟨[], false⟩ exReq o ∧ ¬ Serves exGen ⟨[], true⟩ exReq o := by
  have hd : ∃ d, exReq.toDll = some d := by
    rw [← Option.isSome_iff_exists]
    decide +kernel
  obtain ⟨d, hd⟩ := hd
  have h0 : step exGen (fresh Unit Str ['a'] [] ⟨[], false⟩) (.request exReq) =
      request exGen (fresh Unit Str ['a'] [] ⟨[], false⟩) exReq := rfl
  obtain ⟨o, ho⟩ := C31_answer (g := exGen) exGen_wf (a := ['a']) (i := []) (e := ⟨[], false⟩) (r := exReq) (h := [])
    (by decide) (by show NoDigit []; decide) (by simp) exReq_wf (exHash _ _ _ _) hd rfl
  have hserve := C31_settings_partial (g := exGen) exGen_wf (a := ['a']) (i := []) (e := ⟨[], false⟩) (r := exReq)
    (h := []) (by decide) (by show NoDigit []; decide) (by simp) exReq_wf (exHash _ _ _ _) (by decide) ho
  have hlib : (request exGen (fresh Unit Str ['a'] [] ⟨[], false⟩) exReq).2.lib.lookup (exReq.key ['a']) = some o := by
    have : (request exGen (fresh Unit Str ['a'] [] ⟨[], false⟩) exReq).1 = some o := ho
    revert this
    simp only [request, fresh, List.lookup_nil, hd, getDll, dllImpl, exGen, Gen.job, Option.map_some, id_eq, load,
      List.lookup_cons_self, Option.some.injEq]
    exact id
  have haddr : (request exGen (fresh Unit Str ['a'] [] ⟨[], false⟩) exReq).2.addr = ['a'] := by
    simp only [request, fresh, List.lookup_nil, hd, getDll, dllImpl, exGen, Gen.job, Option.map_some, id_eq, load,
      List.lookup_cons_self]
  refine ⟨o, ?_, hserve, ?_⟩
  · show (request exGen { (request exGen (fresh Unit Str ['a'] [] ⟨[], false⟩) exReq).2 with env := ⟨[], true⟩ }
      exReq).1 = some o
    generalize hs : (request exGen (fresh Unit Str ['a'] [] ⟨[], false⟩) exReq).2 = s at hlib haddr
    unfold request
    rw [show ({ s with env := ⟨[], true⟩ } : Sys Unit Str).lib.lookup
      (exReq.key ({ s with env := ⟨[], true⟩ } : Sys Unit Str).addr) = some o by rw [haddr]; exact hlib]
  · rintro ⟨d1, j1, _, hj1, _, _, hc1⟩
    obtain ⟨d2, j2, _, hj2, _, _, hc2⟩ := hserve
    simp only [exGen, Gen.job, Option.map_some, Option.some.injEq, now, List.foldl_nil] at hj1 hj2
    have h1 : exGen.code j1 = ['S', '(', 'y', ')'] := by rw [← hj1]; rfl
    have h2 : exGen.code j2 = ['S', '(', 'x', ')'] := by rw [← hj2]; rfl
    rw [hc2, h2, h1] at hc1
    exact absurd hc1 (by decide)

end Verif.Cache
