import Verif.Proofs.Cache

/-!
# The invariant of the caches
-/

namespace Verif.Cache
open Alias (Str)
open Lazy (num)

/-! ## Well-formed requests give well-formed keys -/

theorem mem_split {c : Char} {s w : Str} (hw : w ∈ Alias.split c s) : ∀ x ∈ w, x ∈ s := by
  induction s generalizing w with
  | nil =>
    simp only [Alias.split, List.mem_singleton] at hw
    subst hw
    simp
  | cons y t ih =>
    unfold Alias.split at hw
    by_cases h : y = c
    · rw [if_pos h, List.mem_cons] at hw
      rcases hw with rfl | hw
      · simp
      · exact fun x hx => List.mem_cons_of_mem _ (ih hw x hx)
    · rw [if_neg h] at hw
      cases hs : Alias.split c t with
      | nil =>
        rw [hs] at hw
        simp only [List.mem_singleton] at hw
        subst hw
        simp
      | cons a r =>
        rw [hs] at hw
        simp only [List.mem_cons] at hw
        rcases hw with rfl | hw
        · intro x hx
          rcases List.mem_cons.mp hx with rfl | hx
          · simp
          · exact List.mem_cons_of_mem _ (ih (hs ▸ List.mem_cons_self) x hx)
        · exact fun x hx => List.mem_cons_of_mem _ (ih (hs ▸ List.mem_cons_of_mem _ hw) x hx)

theorem loadAlias_name {k : Nat} {loc loc' : Alias.Locals} {a : Str} {bs : List Alias.Binding}
    (h : Alias.loadAlias k loc a = some (loc', bs)) : ∀ b ∈ bs, ∀ c ∈ b.name, c ∈ a := by
  unfold Alias.loadAlias at h
  simp only at h
  by_cases he : '=' ∈ Alias.strip a
  · rw [if_pos he] at h
    split at h
    · rename_i varname var hs
      have hv : ∀ c ∈ varname, c ∈ a := fun c hc => by
        have := mem_split (w := varname) (by rw [hs]; simp) c hc
        exact (List.mem_filter.mp this).1
      split at h
      · cases h
      · split at h
        · simp only [Option.some.injEq, Prod.mk.injEq] at h
          rw [← h.2]
          intro b hb
          rw [List.mem_singleton] at hb
          rw [hb]
          exact hv
        · cases h
    · cases h
  · rw [if_neg he] at h
    simp only [Option.some.injEq, Prod.mk.injEq] at h
    rw [← h.2]
    simp

theorem loadFrom_name {as : List Str} {k : Nat} {loc : Alias.Locals} {bs : List Alias.Binding}
    (h : Alias.loadFrom k loc (as.map some) = some bs) : ∀ b ∈ bs, ∀ c ∈ b.name, ∃ a ∈ as, c ∈ a := by
  induction as generalizing k loc bs with
  | nil =>
    simp only [List.map_nil, Alias.loadFrom, Option.some.injEq] at h
    subst h
    simp
  | cons a as ih =>
    simp only [List.map_cons, Alias.loadFrom] at h
    split at h
    · cases h
    · rename_i loc' bs' hl
      rw [Option.map_eq_some_iff] at h
      obtain ⟨cs, hc, rfl⟩ := h
      intro b hb c hcn
      rcases List.mem_append.mp hb with hb | hb
      · exact ⟨a, List.mem_cons_self, loadAlias_name hl b hb c hcn⟩
      · obtain ⟨a', ha', hm⟩ := ih hc b hb c hcn
        exact ⟨a', List.mem_cons_of_mem _ ha', hm⟩

theorem bindingStr_quote {b : Alias.Binding} (h : '\'' ∉ b.name) : '\'' ∉ bindingStr b := by
  have hn : ∀ n, '\'' ∉ num n := fun n hn => absurd (Lazy.isDigit_num hn) (by decide)
  unfold bindingStr Lazy.formatVar
  have hv : '\'' ∉ "Var".toList := by decide +kernel
  simp only [List.mem_append, List.mem_cons, not_or]
  exact ⟨h, by decide, ⟨⟨⟨hv, by decide, hn _⟩, by decide, hn _⟩, by decide, hn _⟩, by decide, by simp⟩

theorem parseDtypeAcc_mem {a t c : String} (h : parseDtypeAcc a t = some c) :
    c ∈ ["float", "double", "float2", "half2"] := by
  unfold parseDtypeAcc at h
  simp only at h
  repeat' split at h
  all_goals first
    | (cases h; done)
    | (cases h; simp)

theorem cDtype_mem {t c : String} (h : cDtype t = some c) : c ∈ ["float", "double", "half2"] := by
  unfold cDtype at h
  repeat' split at h
  all_goals first
    | (cases h; done)
    | (cases h; simp)

theorem mapReduceId_mem (a b c : Bool) : mapReduceId a b c ∈
    ["CpuReduc", "CpuReduc_ranges", "GpuReduc1D", "GpuReduc1D_ranges", "GpuReduc2D", "GpuReduc2D_ranges"] := by
  revert a b c
  decide +kernel

theorem toDll_wf {r : Req} {d : DllReq} (hr : r.Wf) (h : r.toDll = some d) : d.Wf := by
  unfold Req.toDll at h
  simp only [Option.bind_eq_bind, Option.bind_eq_some_iff, Option.pure_def, Option.some.injEq] at h
  obtain ⟨bs, hb, acc, hacc, c, hc, rfl⟩ := h
  refine ⟨mapReduceId_mem _ _ _, hr.formula, fun a ha => ?_, cDtype_mem hc, parseDtypeAcc_mem hacc, hr.sumScheme⟩
  obtain ⟨b, hbm, rfl⟩ := List.mem_map.mp ha
  refine bindingStr_quote fun hq => ?_
  obtain ⟨a, ha, hm⟩ := loadFrom_name hb b hbm _ hq
  exact hr.aliases a ha hm

variable {Info Code : Type} {g : Gen Info Code}

theorem job_wf (hg : g.Wf) {e : Env} {d : DllReq} {j : Job} (hd : d.Wf) (h : g.job e d = some j) : j.Wf := by
  unfold Gen.job at h
  rw [Option.map_eq_some_iff] at h
  obtain ⟨c, hc, rfl⟩ := h
  exact ⟨hg.cls _ _ _ hc, hg.text _ _ _ hd.formula, hd.formula, hd.aliases, hd.dtype, hd.dtypeAcc, hd.sumScheme⟩

/-! ## The invariant -/

theorem mem_of_lookup {α : Type} {l : List (Str × α)} {k : Str} {v : α} (h : l.lookup k = some v) : (k, v) ∈ l := by
  induction l with
  | nil => simp at h
  | cons p l ih =>
    obtain ⟨k', v'⟩ := p
    rw [List.lookup_cons] at h
    cases hk : k == k' with
    | true =>
      rw [hk] at h
      simp only [Option.some.injEq] at h
      rw [eq_of_beq hk, ← h]
      exact List.mem_cons_self
    | false =>
      rw [hk] at h
      exact List.mem_cons_of_mem _ (ih h)

/-- What is fixed during a history: the requests, the pairs of an address and of settings, the flags at import. -/
structure Scope where
  R : Req → Prop
  P : Str × Env → Prop
  I : Str → Prop

/-- `j` is the job of the request `r` in the scope, under the settings `e`. -/
def Scope.IsJob (g : Gen Info Code) (S : Scope) (e : Env) (d : DllReq) (j : Job) : Prop :=
  (∃ r, S.R r ∧ r.toDll = some d) ∧ (∃ a, S.P (a, e)) ∧ g.job e d = some j

/-- Well-formed scopes without collisions of hashes. -/
structure Scope.Ok (g : Gen Info Code) (S : Scope) : Prop where
  R : ∀ r, S.R r → r.Wf
  P : ∀ p, S.P p → p.2.Wf
  I : ∀ i, S.I i → NoDigit i
  hash : ∀ e d j i e' d' j' i', S.IsJob g e d j → S.IsJob g e' d' j' → S.I i → S.I i' →
    g.hash (j.key i) = g.hash (j'.key i') → j.key i = j'.key i'

theorem Scope.Ok.job {S : Scope} (hg : g.Wf) (h : S.Ok g) {e e' : Env} {d d' : DllReq} {j j' : Job} {i i' : Str}
    (hj : S.IsJob g e d j) (hj' : S.IsJob g e' d' j') (hi : S.I i) (hi' : S.I i')
    (he : g.hash (j.key i) = g.hash (j'.key i')) : j = j' := by
  have wf : ∀ {e d j}, S.IsJob g e d j → j.Wf := fun hj => by
    obtain ⟨⟨r, hr, hd⟩, _, hj⟩ := hj
    exact job_wf hg (toDll_wf (h.R r hr) hd) hj
  exact (job_key_inj (h.I _ hi) (h.I _ hi') (wf hj) (wf hj') (h.hash _ _ _ _ _ _ _ _ hj hj' hi hi' he)).1

/-- An entry of `library_params`. -/
def ParOk (g : Gen Info Code) (S : Scope) (disk : List (Str × (Info × Code))) (k : Str) (p : Par Info) : Prop :=
  ∃ a e r d j i, S.P (a, e) ∧ S.R r ∧ S.I i ∧ k = r.key a ∧ p.req = r ∧ r.toDll = some d ∧ g.job e d = some j ∧
    p.tag = g.hash (j.key i) ∧ p.info = g.info j ∧ (disk.lookup p.tag).isSome

/-- An entry of the dictionary of `Cache`. -/
def DllOk (g : Gen Info Code) (S : Scope) (disk : List (Str × (Info × Code))) (k : Str) (v : Str × Info) : Prop :=
  ∃ e d j i, S.IsJob g e d j ∧ S.I i ∧ k = d.key e ∧ v.1 = g.hash (j.key i) ∧ v.2 = g.info j ∧
    (disk.lookup v.1).isSome

/-- The invariant. -/
structure Inv (g : Gen Info Code) (S : Scope) (s : Sys Info Code) : Prop where
  now : S.P (s.addr, s.env)
  imp : S.I s.imp
  lib : ∀ k o, (k, o) ∈ s.lib → ∃ a e r, S.P (a, e) ∧ S.R r ∧ k = r.key a ∧ Serves g e r o
  par : ∀ k p, (k, p) ∈ s.par → ParOk g S s.disk k p
  dll : ∀ k v, (k, v) ∈ s.dll → DllOk g S s.disk k v
  parFile : ∀ k p, (k, p) ∈ s.parFile → ParOk g S s.disk k p
  dllFile : ∀ k v, (k, v) ∈ s.dllFile → DllOk g S s.disk k v
  disk : ∀ n f, (n, f) ∈ s.disk → ∃ e d j i, S.IsJob g e d j ∧ S.I i ∧ n = g.hash (j.key i) ∧ f.1 = g.info j ∧
    f.2 = g.code j

theorem lookup_mono {α : Type} {l : List (Str × α)} {k n : Str} {v : α} (h : (l.lookup k).isSome) :
    (((n, v) :: l).lookup k).isSome := by
  rw [List.lookup_cons]
  cases k == n <;> simp [h]

theorem dllImpl_spec {S : Scope} (hg : g.Wf) (hS : S.Ok g) {s : Sys Info Code} (hs : Inv g S s) {r : Req} {d : DllReq}
    (hr : S.R r) (hd : r.toDll = some d) :
    (g.job s.env d = none ∧ dllImpl g s d = none) ∨ ∃ j s', g.job s.env d = some j ∧
      dllImpl g s d = some ((g.hash (j.key s.imp), g.info j), s') ∧ Inv g S s' ∧
      (s'.disk.lookup (g.hash (j.key s.imp))).isSome ∧ s'.addr = s.addr ∧ s'.env = s.env ∧ s'.imp = s.imp ∧
      s'.lib = s.lib ∧ s'.par = s.par ∧ s'.dll = s.dll := by
  cases hj : g.job s.env d with
  | none => exact .inl ⟨rfl, by simp [dllImpl, hj]⟩
  | some j =>
    right
    have hI : S.IsJob g s.env d j := ⟨⟨r, hr, hd⟩, ⟨_, hs.now⟩, hj⟩
    cases hf : s.disk.lookup (g.hash (j.key s.imp)) with
    | some f =>
      obtain ⟨e', d', j', i', hI', hi', hn, h1, h2⟩ := hs.disk _ _ (mem_of_lookup hf)
      obtain rfl := hS.job hg hI hI' hs.imp hi' hn
      exact ⟨j, s, rfl, by simp [dllImpl, hj, hf, h1], hs, by simp [hf], rfl, rfl, rfl, rfl, rfl, rfl⟩
    | none =>
      refine ⟨j, { s with disk := (g.hash (j.key s.imp), (g.info j, g.code j)) :: s.disk }, rfl,
        by simp [dllImpl, hj, hf], ?_, by simp, rfl, rfl, rfl, rfl, rfl, rfl⟩
      refine ⟨hs.now, hs.imp, hs.lib, fun k p h => ?_, fun k v h => ?_, fun k p h => ?_, fun k v h => ?_,
        fun n f h => ?_⟩
      · obtain ⟨a, e, r, d, j, i, h1, h2, h3, h4, h5, h6, h7, h8, h9, h10⟩ := hs.par k p h
        exact ⟨a, e, r, d, j, i, h1, h2, h3, h4, h5, h6, h7, h8, h9, lookup_mono h10⟩
      · obtain ⟨e, d, j, i, h1, h2, h3, h4, h5, h6⟩ := hs.dll k v h
        exact ⟨e, d, j, i, h1, h2, h3, h4, h5, lookup_mono h6⟩
      · obtain ⟨a, e, r, d, j, i, h1, h2, h3, h4, h5, h6, h7, h8, h9, h10⟩ := hs.parFile k p h
        exact ⟨a, e, r, d, j, i, h1, h2, h3, h4, h5, h6, h7, h8, h9, lookup_mono h10⟩
      · obtain ⟨e, d, j, i, h1, h2, h3, h4, h5, h6⟩ := hs.dllFile k v h
        exact ⟨e, d, j, i, h1, h2, h3, h4, h5, lookup_mono h6⟩
      · rcases List.mem_cons.mp h with h | h
        · obtain ⟨rfl, rfl⟩ := Prod.mk.inj h
          exact ⟨_, d, j, s.imp, hI, hs.imp, rfl, rfl, rfl⟩
        · exact hs.disk n f h

theorem getDll_spec {S : Scope} (hg : g.Wf) (hS : S.Ok g) {s : Sys Info Code} (hs : Inv g S s) {r : Req} {d : DllReq}
    (hr : S.R r) (hd : r.toDll = some d) :
    (g.job s.env d = none ∧ getDll g s d = none) ∨ ∃ j i v s', g.job s.env d = some j ∧ S.I i ∧
      getDll g s d = some (v, s') ∧ v = (g.hash (j.key i), g.info j) ∧ Inv g S s' ∧ (s'.disk.lookup v.1).isSome ∧
      s'.addr = s.addr ∧ s'.env = s.env ∧ s'.imp = s.imp := by
  unfold getDll
  cases hl : s.dll.lookup (d.key s.env) with
  | some v =>
    right
    obtain ⟨e, d', j, i, ⟨⟨r', hr', hd'⟩, ⟨a, ha⟩, hj⟩, hi, hk, h1, h2, h3⟩ := hs.dll _ _ (mem_of_lookup hl)
    obtain ⟨rfl, rfl⟩ := dll_key_inj (hS.P _ hs.now) (hS.P _ ha) (toDll_wf (hS.R _ hr) hd)
      (toDll_wf (hS.R _ hr') hd') hk
    exact ⟨j, i, v, s, hj, hi, rfl, Prod.ext h1 h2, hs, h3, rfl, rfl, rfl⟩
  | none =>
    rcases dllImpl_spec hg hS hs hr hd with ⟨h1, h2⟩ | ⟨j, s', h1, h2, h3, h4, h5, h6, h7, h8, h9, h10⟩
    · exact .inl ⟨h1, by simp [h2]⟩
    · right
      refine ⟨j, s.imp, _, { s' with dll := (d.key s.env, (g.hash (j.key s.imp), g.info j)) :: s'.dll }, h1, hs.imp,
        by simp [h2, h6], rfl, ?_, h4, h5, h6, h7⟩
      refine ⟨h3.now, h3.imp, h3.lib, h3.par, fun k v h => ?_, h3.parFile, h3.dllFile, h3.disk⟩
      rcases List.mem_cons.mp h with h | h
      · obtain ⟨rfl, rfl⟩ := Prod.mk.inj h
        exact ⟨s.env, d, j, s.imp, ⟨⟨r, hr, hd⟩, ⟨_, hs.now⟩, h1⟩, hs.imp, rfl, rfl, rfl, h4⟩
      · exact h3.dll k v h

theorem load_spec {S : Scope} (hg : g.Wf) (hS : S.Ok g) {s : Sys Info Code} (hs : Inv g S s) {e : Env} {r : Req}
    {d : DllReq} {j : Job} {i : Str} {p : Par Info} (he : ∃ a, S.P (a, e)) (hr : S.R r) (hi : S.I i) (hp : p.req = r)
    (hd : r.toDll = some d) (hj : g.job e d = some j) (ht : p.tag = g.hash (j.key i)) (hinfo : p.info = g.info j)
    (hex : (s.disk.lookup p.tag).isSome) : ∃ o, load s p = some o ∧ o.par = p ∧ Serves g e r o := by
  obtain ⟨f, hf⟩ := Option.isSome_iff_exists.mp hex
  obtain ⟨e', d', j', i', hI', hi', hn, h1, h2⟩ := hs.disk _ _ (mem_of_lookup hf)
  obtain rfl := hS.job hg ⟨⟨r, hr, hd⟩, he, hj⟩ hI' hi hi' (ht.symm.trans hn)
  exact ⟨⟨p, f.2⟩, by simp [load, hf], rfl, d, j, hd, hj, hp, hinfo, h2⟩

/-- A request keeps the invariant; its answer serves the request under settings seen at this address, and it has an
answer if it is valid under the present settings. -/
theorem request_spec {S : Scope} (hg : g.Wf) (hS : S.Ok g) {s : Sys Info Code} (hs : Inv g S s) {r : Req}
    (hr : S.R r) : Inv g S (request g s r).2 ∧ (request g s r).2.addr = s.addr ∧ (request g s r).2.env = s.env ∧
      (request g s r).2.imp = s.imp ∧
      (∀ o, (request g s r).1 = some o → ∃ e, S.P (s.addr, e) ∧ Serves g e r o) ∧
      (∀ d j, r.toDll = some d → g.job s.env d = some j → ∃ o, (request g s r).1 = some o) := by
  unfold request
  cases hl : s.lib.lookup (r.key s.addr) with
  | some o =>
    refine ⟨hs, rfl, rfl, rfl, fun o' ho => ?_, fun _ _ _ _ => ⟨o, rfl⟩⟩
    simp only [Option.some.injEq] at ho
    subst ho
    obtain ⟨a, e, r', h1, h2, h3, h4⟩ := hs.lib _ _ (mem_of_lookup hl)
    obtain ⟨rfl, rfl⟩ := req_key_inj (hS.R _ hr) (hS.R _ h2) h3
    exact ⟨e, h1, h4⟩
  | none =>
    dsimp only
    cases hp : s.par.lookup (r.key s.addr) with
    | some p =>
      dsimp only
      obtain ⟨a, e, r', d, j, i, h1, h2, h3, h4, h5, h6, h7, h8, h9, h10⟩ := hs.par _ _ (mem_of_lookup hp)
      obtain ⟨rfl, rfl⟩ := req_key_inj (hS.R _ hr) (hS.R _ h2) h4
      obtain ⟨o, ho, _, hserve⟩ := load_spec hg hS hs ⟨_, h1⟩ hr h3 h5 h6 h7 h8 h9 h10
      rw [ho]
      refine ⟨⟨hs.now, hs.imp, fun k o' h => ?_, hs.par, hs.dll, hs.parFile, hs.dllFile, hs.disk⟩, rfl, rfl, rfl,
        fun o' ho' => ?_, fun _ _ _ _ => ⟨o, rfl⟩⟩
      · rcases List.mem_cons.mp h with h | h
        · obtain ⟨rfl, rfl⟩ := Prod.mk.inj h
          exact ⟨_, e, r, h1, hr, rfl, hserve⟩
        · exact hs.lib k o' h
      · simp only [Option.some.injEq] at ho'
        subst ho'
        exact ⟨e, h1, hserve⟩
    | none =>
      dsimp only
      cases hd : r.toDll with
      | none => exact ⟨hs, rfl, rfl, rfl, fun o ho => by simp at ho, fun d j h _ => by simp at h⟩
      | some d =>
        dsimp only
        rcases getDll_spec hg hS hs hr hd with ⟨h1, h2⟩ | ⟨j, i, v, s', hj, hi, h2, rfl, h3, h4, h5, h6, h7⟩
        · rw [h2]
          refine ⟨hs, rfl, rfl, rfl, fun o ho => by simp at ho, fun d' j h h' => ?_⟩
          obtain rfl : d = d' := by simpa using h
          rw [h1] at h'
          cases h'
        · rw [h2]
          dsimp only
          obtain ⟨o, ho, hop, hserve⟩ := load_spec (p := ⟨r, g.hash (j.key i), g.info j⟩) hg hS h3 ⟨_, hs.now⟩ hr hi
            rfl hd hj rfl rfl h4
          rw [ho]
          dsimp only
          refine ⟨⟨h3.now, h3.imp, fun k o' h => ?_, fun k p h => ?_, h3.dll, h3.parFile, h3.dllFile, h3.disk⟩, h5, h6, h7,
            fun o' ho' => ?_, fun _ _ _ _ => ⟨o, rfl⟩⟩
          · rcases List.mem_cons.mp h with h | h
            · obtain ⟨rfl, rfl⟩ := Prod.mk.inj h
              exact ⟨_, _, r, hs.now, hr, by rw [h5], hserve⟩
            · exact h3.lib k o' h
          · rcases List.mem_cons.mp h with h | h
            · obtain ⟨rfl, rfl⟩ := Prod.mk.inj h
              rw [hop]
              exact ⟨_, _, r, d, j, i, hs.now, hr, hi, by rw [h5], rfl, hd, hj, rfl, rfl, h4⟩
            · exact h3.par k p h
          · simp only [Option.some.injEq] at ho'
            subst ho'
            exact ⟨_, hs.now, hserve⟩

theorem step_inv {S : Scope} (hg : g.Wf) (hS : S.Ok g) {s : Sys Info Code} (hs : Inv g S s) {ev : Event}
    (hr : ∀ r, ev = .request r → S.R r) (hp : S.P (ev.seen (s.addr, s.env)))
    (hi : ∀ a i e, ev = .exit a i e ∨ ev = .kill a i e → S.I i) :
    Inv g S (step g s ev).2 ∧ ((step g s ev).2.addr, (step g s ev).2.env) = ev.seen (s.addr, s.env) := by
  cases ev with
  | request r =>
    obtain ⟨h1, h2, h3, _⟩ := request_spec hg hS hs (hr r rfl)
    exact ⟨h1, by simp [step, Event.seen, h2, h3]⟩
  | setEnv e => exact ⟨⟨hp, hs.imp, hs.lib, hs.par, hs.dll, hs.parFile, hs.dllFile, hs.disk⟩, rfl⟩
  | exit a i e =>
    exact ⟨⟨hp, hi a i e (.inl rfl), by simp [step, start], hs.par, hs.dll, hs.par, hs.dll, hs.disk⟩, rfl⟩
  | kill a i e =>
    exact ⟨⟨hp, hi a i e (.inr rfl), by simp [step, start], hs.parFile, hs.dllFile, hs.parFile, hs.dllFile,
      hs.disk⟩, rfl⟩
  | clean =>
    exact ⟨⟨hs.now, hs.imp, by simp [step], by simp [step], by simp [step], by simp [step], by simp [step],
      by simp [step]⟩, rfl⟩

theorem after_inv {S : Scope} (hg : g.Wf) (hS : S.Ok g) {h : List Event} {s : Sys Info Code} (hs : Inv g S s)
    (hr : ∀ r ∈ requests h, S.R r) (hp : ∀ p ∈ seen (s.addr, s.env) h, S.P p) (hi : ∀ i ∈ imports s.imp h, S.I i) :
    Inv g S (after g s h) ∧ ((after g s h).addr, (after g s h).env) = now (s.addr, s.env) h := by
  induction h generalizing s with
  | nil => exact ⟨hs, rfl⟩
  | cons ev h ih =>
    have hmem : ∀ p h, p ∈ seen p h := fun p h => by cases h <;> simp [seen]
    have himem : ∀ i h, i ∈ imports i h := fun i h => by
      cases h with
      | nil => simp [imports]
      | cons ev h => cases ev <;> simp [imports]
    have hstep := step_inv (ev := ev) hg hS hs (fun r e => hr r (by simp [requests, e]))
      (hp _ (List.mem_cons_of_mem _ (hmem _ _)))
      (fun a i e he => hi i (by rcases he with rfl | rfl <;> simp [imports, himem]))
    have himp : imports s.imp (ev :: h) = s.imp :: imports (step g s ev).2.imp h := by
      cases ev with
      | request r =>
        have : (request g s r).2.imp = s.imp := (request_spec hg hS hs (hr r (by simp [requests]))).2.2.2.1
        simp [imports, step, this]
      | setEnv e => rfl
      | exit a i e => rfl
      | kill a i e => rfl
      | clean => rfl
    have := ih (s := (step g s ev).2) hstep.1 (fun r e => hr r (by
        rw [requests, List.filterMap_cons]
        split
        · exact e
        · exact List.mem_cons_of_mem _ e))
      (fun p e => hp p (by rw [hstep.2] at e; exact List.mem_cons_of_mem _ e))
      (fun i e => hi i (by rw [himp]; exact List.mem_cons_of_mem _ e))
    refine ⟨this.1, this.2.trans ?_⟩
    rw [hstep.2]
    rfl

end Verif.Cache
