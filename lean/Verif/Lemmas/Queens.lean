import Verif.Queens
import Verif.Lemmas.Arith
/-! Lemmas on the queens model. -/

namespace Satisfy

inductive QVar where | q (r : Nat) | ul (r c : Nat) | ur (r c : Nat)

def qname : QVar → Name
  | .q r => "q_" ++ toString r
  | .ul r c => "diag_ul_br_" ++ toString r ++ "_" ++ toString c
  | .ur r c => "diag_ur_bl_" ++ toString r ++ "_" ++ toString c

def qdom (n : Nat) : QVar → List Int
  | .q _ => pyRange 0 n
  | .ul _ _ => pyRange 0 (2 * n + 1)
  | .ur _ _ => pyRange (-n) (n + 1)

theorem qname_inj {i j : QVar} (h : qname i = qname j) : i = j := by
  have h' := congrArg String.toList h
  cases i <;> cases j <;> simp only [qname] at h h'
  · rw [name1_inj h]
  · simp [String.toList_append] at h'
  · simp [String.toList_append] at h'
  · simp [String.toList_append] at h'
  · obtain ⟨rfl, rfl⟩ := pair_inj h; rfl
  · simp [String.toList_append] at h'
  · simp [String.toList_append] at h'
  · simp [String.toList_append] at h'
  · obtain ⟨rfl, rfl⟩ := pair_inj h; rfl

theorem qname_ok (i : QVar) : checkName (qname i) = true ∧ NameOk (qname i) := by
  cases i with
  | q r => exact name1_ok (p := "q_") (c := 'q') (cs := ['_']) rfl (by decide) (by decide) (by decide) r
  | ul r c => exact name2_ok (p := "diag_ul_br_") (c := 'd') (cs := "iag_ul_br_".toList) rfl (by decide) (by decide) r c
  | ur r c => exact name2_ok (p := "diag_ur_bl_") (c := 'd') (cs := "iag_ur_bl_".toList) rfl (by decide) (by decide) r c

theorem qdom_nodup (n : Nat) (i : QVar) : (qdom n i).Nodup := by cases i <;> exact pyRange_nodup _ _

def qCell (σ : Subst) (r c : Nat) : Prop :=
  val σ (qname (.ul r c)) = val σ (qname (.q c)) + c ∧ val σ (qname (.ur r c)) = val σ (qname (.q c)) - c

def qRow (n : Nat) (σ : Subst) (r : Nat) : Prop :=
  (∀ c < n, qCell σ r c) ∧ (∀ c < n, ∀ c' < n, c ≠ c' → val σ (qname (.ul r c)) ≠ val σ (qname (.ul r c'))) ∧
    (∀ c < n, ∀ c' < n, c ≠ c' → val σ (qname (.ur r c)) ≠ val σ (qname (.ur r c')))

def qQueens (n : Nat) : List QVar := (List.range n).map .q
def qCells (r : Nat) (cs : List Nat) : List QVar := cs.flatMap (fun c => [.ul r c, .ur r c])
def qRows (n : Nat) (rs : List Nat) : List QVar := rs.flatMap (fun r => qCells r (List.range n))

theorem mem_qCells {r : Nat} {cs : List Nat} {i : QVar} : i ∈ qCells r cs ↔ ∃ c ∈ cs, i = .ul r c ∨ i = .ur r c := by
  simp [qCells]

/-- All different, over a family of variables. -/
theorem allDiff_tab {ι : Type} {is : List ι} {nm : ι → Name} {dom : ι → List Int} {σ : Subst} (hσ : OnVars (tabVars is nm dom) σ)
    (hinj : ∀ i j, nm i = nm j → i = j) {js : List ι} (hj : ∀ j ∈ js, j ∈ is) :
    (∀ x ∈ js.map nm, ∀ y ∈ js.map nm, x ≠ y → Dict.get? σ x ≠ Dict.get? σ y) ↔
      ∀ i ∈ js, ∀ j ∈ js, i ≠ j → val σ (nm i) ≠ val σ (nm j) := by
  constructor
  · intro h i hi j hj' hne he
    refine h (nm i) (List.mem_map_of_mem hi) (nm j) (List.mem_map_of_mem hj') (fun e => hne (hinj i j e)) ?_
    obtain ⟨v, _, hv⟩ := hσ.val (hj i hi)
    obtain ⟨u, _, hu⟩ := hσ.val (hj j hj')
    rw [val_eq hv, val_eq hu] at he
    rw [hv, hu, he]
  · intro h x hx y hy hne he
    obtain ⟨i, hi, rfl⟩ := List.mem_map.1 hx
    obtain ⟨j, hj', rfl⟩ := List.mem_map.1 hy
    refine h i hi j hj' (by rintro rfl; exact hne rfl) ?_
    rw [val, val, he]

theorem queensCell_built {n : Nat} {ρ : Store} {w : World} {is : List QVar} {C : Subst → Prop} {queens : List Expr}
    (hq : queens = (List.range n).map (fun r => .var (qname (.q r)))) {r c : Nat} (hc : c < n)
    (hb : Built ρ w (tabVars is qname (qdom n)) C) (hi : ∀ c < n, .q c ∈ is) (h1 : .ul r c ∉ is) (h2 : .ur r c ∉ is) :
    ∃ w', queensCell n queens r c w = (w', .ok (.var (qname (.ul r c)), .var (qname (.ur r c)))) ∧
      Built ρ w' (tabVars (is ++ [.ul r c, .ur r c]) qname (qdom n)) (fun σ => C σ ∧ qCell σ r c) := by
  have hlen : queens.length = n := by simp [hq]
  have hat : listAt queens (c : Int) = .ok (.var (qname (.q c))) := by
    rw [listAt_nat (by omega)]; simp [hq]
  obtain ⟨w1, e1, b1⟩ := hb.addTab (.ul r c) (qdom_nodup n _) (qname_ok _).1 (fun j hj he => h1 (by rw [← qname_inj he]; exact hj))
  obtain ⟨w2, e2, b2⟩ := b1.addCmp (xs := [qname (.ul r c), qname (.q c)]) .eq
    (Den.var (x := qname (.ul r c)) (by simp)) (Den.add (Den.var (x := qname (.q c)) (by simp)) (Den.int c))
    (by
      intro x hx; rw [tabVars_keys]
      simp at hx
      rcases hx with rfl | rfl
      · exact List.mem_map_of_mem (by simp)
      · exact List.mem_map_of_mem (by simp [hi c hc]))
    (by intro x hx; simp at hx; rcases hx with rfl | rfl <;> exact (qname_ok _).2)
  obtain ⟨w3, e3, b3⟩ := b2.addTab (.ur r c) (qdom_nodup n _) (qname_ok _).1 (by
    intro j hj he
    rw [qname_inj he] at hj
    rcases List.mem_append.1 hj with h | h
    · exact h2 h
    · simp at h)
  obtain ⟨w4, e4, b4⟩ := b3.addCmp (xs := [qname (.ur r c), qname (.q c)]) .eq
    (Den.var (x := qname (.ur r c)) (by simp))
    (Den.sub (Den.var (x := qname (.q c)) (by simp)) (Den.int c) (by simp) (by simp))
    (by
      intro x hx; rw [tabVars_keys]
      simp at hx
      rcases hx with rfl | rfl
      · exact List.mem_map_of_mem (by simp)
      · exact List.mem_map_of_mem (by simp [hi c hc]))
    (by intro x hx; simp at hx; rcases hx with rfl | rfl <;> exact (qname_ok _).2)
  refine ⟨w4, ?_, ?_⟩
  · simp only [queensCell, Api.bind_apply, Api.lift, hat]
    simp only [qname, qdom] at e1 e2 e3 e4 ⊢
    rw [e1]; simp only; rw [e2]; simp only; rw [e3]; simp only; rw [e4]
    rfl
  · have : is ++ [QVar.ul r c] ++ [QVar.ur r c] = is ++ [.ul r c, .ur r c] := by simp
    rw [this] at b4
    refine b4.congr (fun σ _ => ?_)
    simp [Cmp.holds, qCell, and_assoc]

theorem queensRow_built {n : Nat} {ρ : Store} {w : World} {is : List QVar} {C : Subst → Prop} {queens : List Expr}
    (hq : queens = (List.range n).map (fun r => .var (qname (.q r)))) {r : Nat}
    (hb : Built ρ w (tabVars is qname (qdom n)) C) (hi : ∀ c < n, .q c ∈ is) (h1 : ∀ c, .ul r c ∉ is ∧ .ur r c ∉ is) :
    ∃ w', queensRow n queens r w = (w', .ok ()) ∧
      Built ρ w' (tabVars (is ++ qCells r (List.range n)) qname (qdom n)) (fun σ => C σ ∧ qRow n σ r) := by
  obtain ⟨w1, e1, b1⟩ := Api.each_spec (f := queensCell n queens r) (g := fun c => (.var (qname (.ul r c)), .var (qname (.ur r c))))
    (I := fun pre w => Built ρ w (tabVars (is ++ qCells r pre) qname (qdom n)) (fun σ => C σ ∧ ∀ c ∈ pre, qCell σ r c)) (List.range n)
    (by
      intro pre c post w he hw
      have hnd : (pre ++ c :: post).Nodup := by rw [← he]; exact List.nodup_range
      have hc : c < n := by rw [← List.mem_range, he]; simp
      have hfr : c ∉ pre := fun h => (List.nodup_append.1 hnd).2.2 c h c (by simp) rfl
      obtain ⟨w', e, b⟩ := queensCell_built (r := r) hq hc hw (fun c hc => by simp [hi c hc])
        (by simp [mem_qCells, h1 c, hfr]) (by simp [mem_qCells, h1 c, hfr])
      refine ⟨w', e, ?_⟩
      have : is ++ qCells r pre ++ [QVar.ul r c, QVar.ur r c] = is ++ qCells r (pre ++ [c]) := by simp [qCells]
      rw [this] at b
      refine b.congr (fun σ _ => ?_)
      simp only [List.mem_append, List.mem_singleton, and_assoc]
      refine and_congr_right (fun _ => ⟨?_, ?_⟩)
      · rintro ⟨h3, h4⟩ c' (h5 | rfl)
        · exact h3 c' h5
        · exact h4
      · intro h3; exact ⟨fun c' h => h3 c' (.inl h), h3 c (.inr rfl)⟩)
    w (by simpa [qCells] using hb)
  have hul : ∀ j ∈ (List.range n).map (QVar.ul r), j ∈ is ++ qCells r (List.range n) := by
    intro j hj; obtain ⟨c, hc, rfl⟩ := List.mem_map.1 hj
    exact List.mem_append.2 (.inr (mem_qCells.2 ⟨c, hc, .inl rfl⟩))
  have hur : ∀ j ∈ (List.range n).map (QVar.ur r), j ∈ is ++ qCells r (List.range n) := by
    intro j hj; obtain ⟨c, hc, rfl⟩ := List.mem_map.1 hj
    exact List.mem_append.2 (.inr (mem_qCells.2 ⟨c, hc, .inr rfl⟩))
  obtain ⟨w2, e2, b2⟩ := b1.addAllDiff (((List.range n).map (QVar.ul r)).map qname) (by
    intro x hx; obtain ⟨j, hj, rfl⟩ := List.mem_map.1 hx; rw [tabVars_keys]; exact List.mem_map_of_mem (hul j hj))
  obtain ⟨w3, e3, b3⟩ := b2.addAllDiff (((List.range n).map (QVar.ur r)).map qname) (by
    intro x hx; obtain ⟨j, hj, rfl⟩ := List.mem_map.1 hx; rw [tabVars_keys]; exact List.mem_map_of_mem (hur j hj))
  refine ⟨w3, ?_, b3.congr (fun σ hσ => ?_)⟩
  · simp only [queensRow, Api.bind_apply, e1, List.map_map] at e2 e3 ⊢
    have f1 : ((fun p : Expr × Expr => p.1.name) ∘ fun c => (Expr.var (qname (.ul r c)), Expr.var (qname (.ur r c)))) = qname ∘ QVar.ul r := rfl
    have f2 : ((fun p : Expr × Expr => p.2.name) ∘ fun c => (Expr.var (qname (.ul r c)), Expr.var (qname (.ur r c)))) = qname ∘ QVar.ur r := rfl
    rw [f1, e2]; simp only; rw [f2, e3]
  · rw [allDiff_tab hσ (fun i j h => qname_inj h) hul, allDiff_tab hσ (fun i j h => qname_inj h) hur]
    simp [qRow, and_assoc]

theorem queens_built (h : Heap) (n : Nat) :
    ∃ w, queensBuild n ⟨.empty, h⟩ = (w, .ok ((List.range n).map (fun r => .var (qname (.q r))))) ∧
      Built h.params w (tabVars (qQueens n ++ qRows n (List.range n)) qname (qdom n))
        (fun σ => (∀ r < n, ∀ r' < n, r ≠ r' → val σ (qname (.q r)) ≠ val σ (qname (.q r'))) ∧ ∀ r < n, qRow n σ r) := by
  obtain ⟨w1, e1, b1⟩ := (BuiltC.empty h).addTabs (is := []) (nm := qname) (dom := qdom n) (qQueens n) (fun i _ => qdom_nodup n i)
    (fun i _ => (qname_ok i).1) (by
      simp only [List.nil_append, qQueens, List.map_map]
      exact List.Nodup.map (fun i j h => by have := qname_inj h; cases this; rfl) List.nodup_range)
  simp only [List.nil_append] at b1
  have hmap : Api.each (fun r => addIntVariable (pyRange 0 n) (some ("q_" ++ toString r))) (List.range n) ⟨.empty, h⟩ =
      (w1, .ok ((List.range n).map (fun r => .var (qname (.q r))))) := by
    have gen : ∀ (l : List Nat) (w : World), Api.each (fun i => addIntVariable (qdom n i) (some (qname i))) (l.map QVar.q) w =
        Api.each (fun r => addIntVariable (pyRange 0 n) (some ("q_" ++ toString r))) l w := by
      intro l
      induction l with
      | nil => intro w; rfl
      | cons r l ih =>
        intro w
        simp only [List.map_cons, Api.each, Api.bind_apply, ih]
        rfl
    rw [← gen, ← qQueens, e1, qQueens, List.map_map]
    rfl
  obtain ⟨w2, e2, b2⟩ := b1.addAllDiff ((qQueens n).map qname) (by intro x hx; rw [tabVars_keys]; exact hx)
  obtain ⟨w3, e3, b3⟩ := Api.each_spec (f := queensRow n ((List.range n).map (fun r => .var (qname (.q r))))) (g := fun _ => ())
    (I := fun pre w => Built h.params w (tabVars (qQueens n ++ qRows n pre) qname (qdom n))
      (fun σ => (∀ r < n, ∀ r' < n, r ≠ r' → val σ (qname (.q r)) ≠ val σ (qname (.q r'))) ∧ ∀ r ∈ pre, qRow n σ r)) (List.range n)
    (by
      intro pre r post w he hw
      have hnd : (pre ++ r :: post).Nodup := by rw [← he]; exact List.nodup_range
      have hfr : r ∉ pre := fun h => (List.nodup_append.1 hnd).2.2 r h r (by simp) rfl
      obtain ⟨w', e, b⟩ := queensRow_built (r := r) rfl hw (fun c hc => by simp [qQueens, hc]) (by
        intro c
        simp only [List.mem_append, qQueens, List.mem_map, qRows, List.mem_flatMap, mem_qCells]
        constructor
        · rintro (⟨a, _, ha⟩ | ⟨a, h1, a', _, ha | ha⟩)
          · cases ha
          · cases ha; exact hfr h1
          · cases ha
        · rintro (⟨a, _, ha⟩ | ⟨a, h1, a', _, ha | ha⟩)
          · cases ha
          · cases ha
          · cases ha; exact hfr h1)
      refine ⟨w', e, ?_⟩
      have : qQueens n ++ qRows n pre ++ qCells r (List.range n) = qQueens n ++ qRows n (pre ++ [r]) := by simp [qRows]
      rw [this] at b
      refine b.congr (fun σ _ => ?_)
      simp only [List.mem_append, List.mem_singleton, and_assoc]
      refine and_congr_right (fun _ => ⟨?_, ?_⟩)
      · rintro ⟨h3, h4⟩ c' (h5 | rfl)
        · exact h3 c' h5
        · exact h4
      · intro h3; exact ⟨fun c' h => h3 c' (.inl h), h3 r (.inr rfl)⟩)
    w2 (by
      simp only [qRows, List.flatMap_nil, List.append_nil]
      refine b2.congr (fun σ hσ => ?_)
      rw [allDiff_tab hσ (fun i j h => qname_inj h) (fun j hj => hj)]
      simp [qQueens])
  refine ⟨w3, ?_, ?_⟩
  · have f1 : ((List.range n).map (fun r => Expr.var (qname (.q r)))).map Expr.name = (qQueens n).map qname := by
      simp [qQueens, Expr.name]
    simp only [queensBuild, Api.bind_apply, hmap, f1, e2, e3]
    rfl
  · simpa using b3

end Satisfy
