import Verif.Lemmas.Built
/-! Names made by `"prefix_{}".format(n)`, and tables of values. -/

namespace Satisfy

theorem toString_word (n : Nat) : ∀ c ∈ (toString n).toList, isWord c = true := by
  intro c hc
  have : c ∈ Nat.toDigits 10 n := by simpa using hc
  have := Nat.isDigit_of_mem_toDigits (by omega) (by omega) this
  simp [isWord, Char.isAlphanum, this]

theorem toString_no_underscore (n : Nat) : '_' ∉ (toString n).toList := by
  intro hc
  have : '_' ∈ Nat.toDigits 10 n := by simpa using hc
  have := Nat.isDigit_of_mem_toDigits (by omega) (by omega) this
  exact absurd this (by decide)

theorem checkName_of_word {x : Name} {c : Char} {cs : List Char} (h : x.toList = c :: cs) (hc : c.isAlpha = true)
    (hcs : ∀ d ∈ cs, isWord d = true) : checkName x = true := by
  unfold checkName
  rw [h]
  have hlast : (c :: cs).getLast? ≠ some '\n' := by
    intro hl
    have := List.mem_of_getLast? hl
    rcases List.mem_cons.1 this with h1 | h1
    · subst h1; exact absurd hc (by decide)
    · exact absurd (hcs _ h1) (by decide)
  simp only [hlast, if_false, hc, Bool.true_and, List.all_eq_true]
  exact hcs

theorem nameOk_of_word {x : Name} {c : Char} {cs : List Char} (h : x.toList = c :: cs) (hc : c.isAlpha = true)
    (hcs : ∀ d ∈ cs, isWord d = true) (hu : '_' ∈ cs) : NameOk x := by
  refine ⟨?_, ?_⟩
  · unfold isIdent
    rw [h]
    simp only [hc, Bool.true_or, Bool.true_and, List.all_eq_true]
    exact hcs
  · have key : ∀ k ∈ ["False", "None", "True", "and", "as", "assert", "async", "await", "break", "class", "continue",
        "def", "del", "elif", "else", "except", "finally", "for", "from", "global", "if", "import", "in",
        "is", "lambda", "nonlocal", "not", "or", "pass", "raise", "return", "try", "while", "with", "yield",
        "sum", "prod", "abs", "__dummy_kwargs"], '_' ∉ k.toList.tail ∨ k.toList.head? = some '_' := by decide
    intro hx
    rcases key x hx with hk | hk
    · exact hk (by rw [h]; exact hu)
    · rw [h] at hk
      simp only [List.head?_cons, Option.some.injEq] at hk
      subst hk; exact absurd hc (by decide)

/-- Cut at the first underscore. -/
theorem cut_inj {l1 l1' l2 l2' : List Char} (h1 : '_' ∉ l1) (h1' : '_' ∉ l1') (h : l1 ++ '_' :: l2 = l1' ++ '_' :: l2') :
    l1 = l1' ∧ l2 = l2' := by
  induction l1 generalizing l1' with
  | nil =>
    cases l1' with
    | nil => simpa using h
    | cons c l1' => simp at h; exact absurd (by simp [← h.1]) h1'
  | cons c l1 ih =>
    cases l1' with
    | nil => simp at h; exact absurd (by simp [h.1]) h1
    | cons c' l1' =>
      simp only [List.cons_append, List.cons.injEq] at h
      obtain ⟨h2, h3⟩ := ih (fun hc => h1 (by simp [hc])) (fun hc => h1' (by simp [hc])) h.2
      exact ⟨by rw [h.1, h2], h3⟩

/-- `"p{}_{}".format(r, c)` -/
theorem pair_inj {p : String} {r c r' c' : Nat}
    (h : p ++ toString r ++ "_" ++ toString c = p ++ toString r' ++ "_" ++ toString c') : r = r' ∧ c = c' := by
  have := congrArg String.toList h
  simp only [String.toList_append, List.append_assoc, List.append_cancel_left_eq] at this
  obtain ⟨h1, h2⟩ := cut_inj (toString_no_underscore r) (toString_no_underscore r') (show _ ++ '_' :: (toString c).toList = _ ++ '_' :: (toString c').toList from this)
  exact ⟨toString_inj (String.toList_inj.1 h1), toString_inj (String.toList_inj.1 h2)⟩

/-- `"p{}".format(n)` -/
theorem name1_inj {p : String} {i j : Nat} (h : p ++ toString i = p ++ toString j) : i = j := by
  have := congrArg String.toList h
  simp only [String.toList_append, List.append_cancel_left_eq] at this
  exact toString_inj (String.toList_inj.1 this)

theorem name1_ok {p : String} {c : Char} {cs : List Char} (hp : p.toList = c :: cs) (hc : c.isAlpha = true)
    (hcs : ∀ d ∈ cs, isWord d = true) (hu : '_' ∈ cs) (i : Nat) :
    checkName (p ++ toString i) = true ∧ NameOk (p ++ toString i) := by
  have h : (p ++ toString i).toList = c :: (cs ++ (toString i).toList) := by simp [String.toList_append, hp]
  have hw : ∀ d ∈ cs ++ (toString i).toList, isWord d = true := by
    intro d hd
    rcases List.mem_append.1 hd with hd | hd
    · exact hcs d hd
    · exact toString_word i d hd
  exact ⟨checkName_of_word h hc hw, nameOk_of_word h hc hw (by simp [hu])⟩

theorem name2_ok {p : String} {c : Char} {cs : List Char} (hp : p.toList = c :: cs) (hc : c.isAlpha = true)
    (hcs : ∀ d ∈ cs, isWord d = true) (i j : Nat) :
    checkName (p ++ toString i ++ "_" ++ toString j) = true ∧ NameOk (p ++ toString i ++ "_" ++ toString j) := by
  have h : (p ++ toString i ++ "_" ++ toString j).toList = c :: (cs ++ ((toString i).toList ++ ('_' :: (toString j).toList))) := by
    simp [String.toList_append, hp]
  have hw : ∀ d ∈ cs ++ ((toString i).toList ++ ('_' :: (toString j).toList)), isWord d = true := by
    intro d hd
    simp only [List.mem_append, List.mem_cons] at hd
    rcases hd with hd | hd | rfl | hd
    · exact hcs d hd
    · exact toString_word i d hd
    · decide
    · exact toString_word j d hd
  exact ⟨checkName_of_word h hc hw, nameOk_of_word h hc hw (by simp)⟩

section
variable {ι : Type}

/-- The substitution that gives `nm i` the value `f i`. -/
def tab (is : List ι) (nm : ι → Name) (f : ι → Int) : Subst := is.map (fun i => (nm i, f i))

/-- Variables `nm i` with domains `dom i`. -/
def tabVars (is : List ι) (nm : ι → Name) (dom : ι → List Int) : Dict (List Int) := is.map (fun i => (nm i, dom i))

variable {is : List ι} {nm : ι → Name} {f : ι → Int} {dom : ι → List Int}

theorem tabVars_keys : (tabVars is nm dom).keys = is.map nm := by simp [tabVars, Dict.keys, List.map_map, Function.comp_def]

theorem tab_keys : (tab is nm f).keys = is.map nm := by simp [tab, Dict.keys, List.map_map, Function.comp_def]

theorem tab_get (hn : (is.map nm).Nodup) {i : ι} (hi : i ∈ is) : (tab is nm f).get? (nm i) = some (f i) :=
  mem_get? (d := tab is nm f) (p := (nm i, f i)) (by rw [tab_keys]; exact hn) (List.mem_map.2 ⟨i, hi, rfl⟩)

theorem tab_exact (hn : (is.map nm).Nodup) (hf : ∀ i ∈ is, f i ∈ dom i) : Exact (tabVars is nm dom) (tab is nm f) := by
  refine ⟨by rw [tab_keys]; exact hn, by intro x; rw [tab_keys, tabVars_keys], fun p hp => ?_⟩
  obtain ⟨i, hi, rfl⟩ := List.mem_map.1 hp
  exact ⟨f i, hf i hi, tab_get hn hi⟩

theorem Exact.val {τ : Subst} (h : Exact (tabVars is nm dom) τ) {i : ι} (hi : i ∈ is) : ∃ v ∈ dom i, τ.get? (nm i) = some v :=
  h.on (nm i, dom i) (List.mem_map.2 ⟨i, hi, rfl⟩)

theorem OnVars.val {τ : Subst} (h : OnVars (tabVars is nm dom) τ) {i : ι} (hi : i ∈ is) : ∃ v ∈ dom i, τ.get? (nm i) = some v :=
  h (nm i, dom i) (List.mem_map.2 ⟨i, hi, rfl⟩)

end

theorem Exact.same {vs : Dict (List Int)} {τ τ' : Subst} (h : Exact vs τ) (h' : Exact vs τ')
    (he : ∀ x ∈ vs.keys, τ.get? x = τ'.get? x) : SameDict τ τ' := by
  intro x
  by_cases hx : x ∈ vs.keys
  · exact he x hx
  · rw [(Dict.get?_eq_none_iff _ _).2 (fun hc => hx ((h.keys x).1 hc)), (Dict.get?_eq_none_iff _ _).2 (fun hc => hx ((h'.keys x).1 hc))]

/-- The value, for bound variables. -/
def val (τ : Subst) (x : Name) : Int := (τ.get? x).getD 0

theorem val_eq {τ : Subst} {x : Name} {v : Int} (h : τ.get? x = some v) : val τ x = v := by simp [val, h]

theorem Subst.at_ok {τ : Subst} {x : Name} {v : Int} (h : τ.get? x = some v) : τ.at x = .ok v := by simp [Subst.at, h]

theorem SameDict.at {τ τ' : Subst} (h : SameDict τ τ') (x : Name) : τ.at x = τ'.at x := by unfold Subst.at; rw [h x]

end Satisfy
