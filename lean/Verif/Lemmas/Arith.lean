import Verif.Lemmas.Names
/-! Expressions built with `+ - * & sum` and comparisons: they have values, and compile faithfully. -/

namespace Satisfy
open Props

/-- `o` is built from the variables `xs` and has the value `f`. -/
structure Den (xs : List Name) (o : Obj) (f : (Name → Int) → Int) : Prop where
  vars : ∀ x ∈ objVars o, x ∈ xs
  nice : NiceO false o
  eval : ∀ ρ σ, (∀ x ∈ xs, Dict.get? σ x ≠ none) → o.eval ρ σ = .ok (f (val σ))
  params : ∀ i, i ∉ objParams o

section
variable {xs : List Name} {a b : Obj} {f g : (Name → Int) → Int}

theorem Den.mono {ys : List Name} (h : Den xs a f) (hs : ∀ x ∈ xs, x ∈ ys) : Den ys a f :=
  ⟨fun x hx => hs x (h.vars x hx), h.nice, fun ρ σ hσ => h.eval ρ σ (fun x hx => hσ x (hs x hx)), h.params⟩

theorem Den.int (n : Int) : Den xs (.int n) (fun _ => n) :=
  ⟨by simp [objVars, coerce, Expr.vars], .const n, fun _ _ _ => rfl, by simp [objParams, coerce, Expr.params]⟩

theorem Den.var {x : Name} (hx : x ∈ xs) : Den xs (.expr (.var x)) (fun s => s x) := by
  refine ⟨by simpa [objVars, coerce, Expr.vars] using hx, .var x, fun ρ σ h => ?_, by simp [objParams, coerce, Expr.params]⟩
  cases hg : Dict.get? σ x with
  | none => exact absurd hg (h x hx)
  | some v => simp [Obj.eval, Expr.eval, hg, val]

theorem Den.add (ha : Den xs a f) (hb : Den xs b g) : Den xs (a.add b) (fun s => f s + g s) :=
  ⟨fun x hx => (C03_vars_add a b x hx).elim (ha.vars x) (hb.vars x),
   apply_nice (o := .add) rfl ha.nice hb.nice (by simp) (by simp),
   fun ρ σ h => C01_add (ha.eval ρ σ h) (hb.eval ρ σ h),
   fun i hi => (mem_params_add a b i hi).elim (ha.params i) (hb.params i)⟩

theorem Den.mul (ha : Den xs a f) (hb : Den xs b g) : Den xs (a.mul b) (fun s => f s * g s) :=
  ⟨fun x hx => (C03_vars_mul a b x hx).elim (ha.vars x) (hb.vars x),
   apply_nice (o := .mul) rfl ha.nice hb.nice (by simp) (by simp),
   fun ρ σ h => C01_mul (ha.eval ρ σ h) (hb.eval ρ σ h),
   fun i hi => (mem_params_mul a b i hi).elim (ha.params i) (hb.params i)⟩

theorem Den.sub (ha : Den xs a f) (hb : Den xs b g) (h0 : a ≠ .int 0) (h1 : a ≠ .expr (.const 0)) : Den xs (a.sub b) (fun s => f s - g s) :=
  ⟨fun x hx => (C03_vars_sub a b x hx).elim (ha.vars x) (hb.vars x),
   apply_nice (o := .sub) rfl ha.nice hb.nice (by simp) (fun _ => .inl ⟨h0, h1⟩),
   fun ρ σ h => C01_sub (ha.eval ρ σ h) (hb.eval ρ σ h),
   fun i hi => (mem_params_sub a b i hi).elim (ha.params i) (hb.params i)⟩

theorem Den.cmp (c : Cmp) (ha : Den xs a f) (hb : Den xs b g) : Den xs (Obj.cmp c a b) (fun s => if c.holds (f s) (g s) then 1 else 0) :=
  ⟨fun x hx => (C03_vars_cmp c a b x hx).elim (ha.vars x) (hb.vars x),
   apply_nice (o := .cmp c) rfl ha.nice hb.nice (by simp) (by simp),
   fun ρ σ h => C01_cmp c (ha.eval ρ σ h) (hb.eval ρ σ h),
   fun i hi => (mem_params_cmp c a b i hi).elim (ha.params i) (hb.params i)⟩

theorem Den.and (ha : Den xs a f) (hb : Den xs b g) (hab : (∃ e, a = .expr e) ∨ (∃ e, b = .expr e)) :
    Den xs (a.and b) (fun s => if f s ≠ 0 then g s else f s) :=
  ⟨fun x hx => (C03_vars_and a b x hx).elim (ha.vars x) (hb.vars x),
   apply_nice (o := .and) rfl ha.nice hb.nice (by simp) (by simp),
   fun ρ σ h => C01_and (ha.eval ρ σ h) (hb.eval ρ σ h) hab,
   fun i hi => (mem_params_and a b i hi).elim (ha.params i) (hb.params i)⟩

theorem Den.congr (ha : Den xs a f) (h : ∀ s, f s = g s) : Den xs a g := by
  have : f = g := funext h
  rw [← this]; exact ha

theorem Den.sum {ι : Type} {l : List ι} {o : ι → Obj} {f : ι → (Name → Int) → Int} (h : ∀ i ∈ l, Den xs (o i) (f i)) :
    Den xs (Obj.pySum (l.map o)) (fun s => (l.map (fun i => f i s)).sum) := by
  have gen : ∀ (l : List ι) (a : Obj) (g : (Name → Int) → Int), Den xs a g → (∀ i ∈ l, Den xs (o i) (f i)) →
      Den xs ((l.map o).foldl Obj.add a) (fun s => g s + (l.map (fun i => f i s)).sum) := by
    intro l
    induction l with
    | nil => intro a g ha _; exact ha.congr (by simp)
    | cons i l ih =>
      intro a g ha h
      refine (ih _ _ (ha.add (h i (by simp))) (fun j hj => h j (by simp [hj]))).congr (fun s => ?_)
      simp [Int.add_assoc]
  exact (gen l _ _ (Den.int 0) h).congr (by simp)

theorem Den.safe {ρ : Store} (h : Den xs a f) (hn : ∀ x ∈ xs, NameOk x) : (coerce a).Safe ρ := by
  obtain ⟨L, hL, _⟩ := nice_lvl (ρ := ρ) h.nice
  exact ⟨by rw [hL]; rfl, fun x hx => hn x (h.vars x hx)⟩

theorem val_append_zero (σ : Subst) (ys : List Name) : val (σ ++ ys.map (fun x => (x, (0 : Int)))) = val σ := by
  funext x
  have h0 : ∀ ys : List Name, Dict.get? (ys.map (fun x => (x, (0 : Int)))) x = none ∨ Dict.get? (ys.map (fun x => (x, (0 : Int)))) x = some 0 := by
    intro ys
    induction ys with
    | nil => exact .inl rfl
    | cons y ys ih =>
      simp only [List.map_cons, Dict.get?]
      split
      · exact .inr rfl
      · exact ih
  unfold val
  rw [show σ.get? x = Dict.get? σ x from rfl, Dict.get?_append]
  cases hg : Dict.get? σ x with
  | some v => rfl
  | none => rcases h0 ys with h | h <;> simp [h]

theorem Den.total (h : Den xs a f) : (coerce a).Total := by
  intro ρ σ hσ
  refine ⟨f (val σ), ?_⟩
  have h1 := h.eval ρ (σ ++ xs.map (fun x => (x, (0 : Int)))) (by
    intro x hx
    rw [Dict.get?_append]
    have : ∃ v, Dict.get? (xs.map (fun x => (x, (0 : Int)))) x = some v :=
      Dict.get?_isSome_of_mem_keys (by simp [Dict.keys, Function.comp_def, hx])
    obtain ⟨v, hv⟩ := this
    cases Dict.get? σ x <;> simp [hv])
  rw [val_append_zero] at h1
  rw [← h1, ← coerce_eval]
  apply eval_congr
  intro x hx
  rw [Dict.get?_append]
  cases hg : Dict.get? σ x with
  | none => exact absurd hg (hσ x hx)
  | some v => rfl

end

theorem pyRange_nodup (a b : Int) : (pyRange a b).Nodup := by
  rw [pyRange]
  refine List.Nodup.map (fun i j h => ?_) List.nodup_range
  have h : a + (i : Int) = a + (j : Int) := h
  omega

theorem mem_pyRange {a b v : Int} : v ∈ pyRange a b ↔ a ≤ v ∧ v < b := by
  simp only [pyRange, List.mem_map, List.mem_range]
  constructor
  · rintro ⟨i, hi, rfl⟩
    have : (Int.ofNat i) = (i : Int) := rfl
    omega
  · rintro ⟨h1, h2⟩
    refine ⟨(v - a).toNat, by omega, ?_⟩
    have : Int.ofNat (v - a).toNat = ((v - a).toNat : Int) := rfl
    omega

theorem listAt_nat {α : Type} {l : List α} {i : Nat} (h : i < l.length) : listAt l (i : Int) = .ok l[i] := by
  have : pyIndex l.length (i : Int) = some i := by simp [pyIndex, h]
  simp [listAt, this, h]

theorem listSet_nat {α : Type} {l : List α} {i : Nat} (h : i < l.length) (x : α) : listSet l (i : Int) x = .ok (l.set i x) := by
  have : pyIndex l.length (i : Int) = some i := by simp [pyIndex, h]
  simp [listSet, this]

/-- Another variable of a family. -/
theorem BuiltC.addTab {ρ : Store} {w : World} {C : Subst → Prop} {ι : Type} {is : List ι} {nm : ι → Name} {dom : ι → List Int}
    (hb : Built ρ w (tabVars is nm dom) C) (i : ι) (hd : (dom i).Nodup) (hc : checkName (nm i) = true) (hf : ∀ j ∈ is, nm j ≠ nm i) :
    ∃ w', addIntVariable (dom i) (some (nm i)) w = (w', .ok (.var (nm i))) ∧ Built ρ w' (tabVars (is ++ [i]) nm dom) C := by
  obtain ⟨w', h1, h2⟩ := hb.addInt (d := dom i) (nm := nm i) hd hc (by
    rw [tabVars_keys]; intro h; obtain ⟨j, hj, he⟩ := List.mem_map.1 h; exact hf j hj he)
  refine ⟨w', h1, ?_⟩
  simpa [tabVars] using h2

/-- A loop that adds a family of variables. -/
theorem BuiltC.addTabs {ρ : Store} {w : World} {C : Subst → Prop} {ι : Type} {is : List ι} {nm : ι → Name} {dom : ι → List Int}
    (hb : Built ρ w (tabVars is nm dom) C) (js : List ι) (hd : ∀ i ∈ js, (dom i).Nodup) (hc : ∀ i ∈ js, checkName (nm i) = true)
    (hf : ((is ++ js).map nm).Nodup) :
    ∃ w', Api.each (fun i => addIntVariable (dom i) (some (nm i))) js w = (w', .ok (js.map (fun i => .var (nm i)))) ∧
      Built ρ w' (tabVars (is ++ js) nm dom) C := by
  refine Api.each_spec (I := fun pre w => Built ρ w (tabVars (is ++ pre) nm dom) C) js ?_ w (by simpa using hb)
  intro pre i post w he hw
  obtain ⟨w', h1, h2⟩ := hw.addTab i (hd i (by simp [he])) (hc i (by simp [he])) (by
    intro j hj hji
    rw [he, ← List.append_assoc, List.map_append, List.map_cons, List.nodup_append] at hf
    exact hf.2.2 (nm j) (List.mem_map_of_mem hj) (nm i) (by simp) hji)
  exact ⟨w', h1, by simpa using h2⟩

/-- Adding the constraint `o`. -/
theorem BuiltC.addDen {ρ : Store} {w : World} {vs : Dict (List Int)} {C : Subst → Prop} (hb : Built ρ w vs C) {xs : List Name} {o : Obj}
    {f : (Name → Int) → Int} (h : Den xs o f) (hx : ∀ x ∈ xs, x ∈ vs.keys) (hn : ∀ x ∈ xs, NameOk x) :
    ∃ w', addConstraint o.toArg w = (w', .ok ()) ∧ Built ρ w' vs (fun σ => C σ ∧ f (val σ) ≠ 0) := by
  obtain ⟨w', h1, h2⟩ := hb.addObj o (fun x hx' => hx x (h.vars x hx')) (h.safe hn) h.total
    (List.eq_nil_iff_forall_not_mem.2 h.params)
  refine ⟨w', h1, h2.congr (fun σ hσ => ?_)⟩
  rw [h.eval ρ σ (fun x hx' => by
    obtain ⟨d, hd⟩ := Dict.get?_isSome_of_mem_keys (hx x hx')
    obtain ⟨v, _, hv⟩ := hσ _ (get?_mem hd)
    rw [hv]; simp)]
  simp

/-- Adding the comparison `a ⋈ b`. -/
theorem BuiltC.addCmp {ρ : Store} {w : World} {vs : Dict (List Int)} {C : Subst → Prop} (hb : Built ρ w vs C) {xs : List Name} {a b : Obj}
    {f g : (Name → Int) → Int} (c : Cmp) (ha : Den xs a f) (hb' : Den xs b g) (hx : ∀ x ∈ xs, x ∈ vs.keys) (hn : ∀ x ∈ xs, NameOk x) (hnc : NotConsts a b := by first | exact .left (by simp) | exact .right (by simp)) :
    ∃ w', addConstraint (cmpArg c a b) w = (w', .ok ()) ∧
      Built ρ w' vs (fun σ => C σ ∧ c.holds (f (val σ)) (g (val σ)) = true) := by
  obtain ⟨w', h1, h2⟩ := hb.addDen (Den.cmp c ha hb') hx hn
  rw [cmpArg_eq c hnc]
  exact ⟨w', h1, h2.congr (fun σ _ => by cases c.holds (f (val σ)) (g (val σ)) <;> simp)⟩

end Satisfy
