import Verif.Lemmas.Runs
import Verif.Lemmas.Arith
import Verif.Lemmas.Solid
/-! Lemmas on the nonogram model. -/

namespace Satisfy

/-- Row or column, its number, the number of the block. -/
abbrev NIdx := Bool × Nat × Nat

def npfx (b : Bool) : String := if b then "r" else "c"

def nname (x : NIdx) : Name := npfx x.1 ++ toString x.2.1 ++ "_" ++ toString x.2.2

theorem nname_inj {x y : NIdx} (h : nname x = nname y) : x = y := by
  obtain ⟨b, i, k⟩ := x
  obtain ⟨b', i', k'⟩ := y
  have hb : b = b' := by
    have := congrArg (fun s => s.toList.head?) h
    cases b <;> cases b' <;> simp [nname, npfx, String.toList_append] at this <;> rfl
  subst hb
  obtain ⟨h1, h2⟩ := pair_inj h
  simp only at h1 h2
  rw [h1, h2]

theorem nname_ok (x : NIdx) : checkName (nname x) = true ∧ NameOk (nname x) := by
  obtain ⟨b, i, k⟩ := x
  cases b
  · exact name2_ok (p := "c") (c := 'c') (cs := []) rfl (by decide) (by simp) i k
  · exact name2_ok (p := "r") (c := 'r') (cs := []) rfl (by decide) (by simp) i k

def lineStart (L : List Int) (k : Nat) : Int := (L.take k).sum + k

def lineRem (L : List Int) (k : Nat) : Int := (L.drop k).sum + L.length - k - 1

theorem lineStart_succ {L : List Int} {k : Nat} (h : k < L.length) : lineStart L (k + 1) = lineStart L k + (L.getD k 0 + 1) := by
  unfold lineStart
  rw [List.take_succ_eq_append_getElem h, List.sum_append]
  have : L.getD k 0 = L[k] := by simp [List.getD, h]
  rw [this, List.sum_singleton]
  push_cast
  omega

theorem lineRem_succ {L : List Int} {k : Nat} (h : k < L.length) : lineRem L (k + 1) = lineRem L k - (L.getD k 0 + 1) := by
  unfold lineRem
  have : L.getD k 0 = L[k] := by simp [List.getD, h]
  rw [List.drop_eq_getElem_cons h, List.sum_cons, this]
  push_cast
  omega

section
variable (F : Bool → Nat → List Int) (N : Bool → Nat)

/-- The domain of the variable. -/
def ndom (x : NIdx) : List Int := pyRange (lineStart (F x.1 x.2.1) x.2.2) (N x.1 - lineRem (F x.1 x.2.1) x.2.2 + 1)

def nvar (x : NIdx) : NVar :=
  ⟨.var (nname x), (F x.1 x.2.1).getD x.2.2 0, lineStart (F x.1 x.2.1) x.2.2, (N x.1 - lineRem (F x.1 x.2.1) x.2.2 + 1) + (F x.1 x.2.1).getD x.2.2 0⟩

def lineIdx (b : Bool) (i n : Nat) : List NIdx := (List.range n).map (fun k => (b, i, k))

theorem lineIdx_succ (b : Bool) (i n : Nat) : lineIdx b i (n + 1) = lineIdx b i n ++ [(b, i, n)] := by
  simp [lineIdx, List.range_succ]

/-- The next block begins behind a gap. -/
def Gap (b : Bool) (i j : Nat) (s : Name → Int) : Prop := s (nname (b, i, j)) + (F b i).getD j 0 < s (nname (b, i, j + 1))

theorem nonoLoop_built {ρ : Store} {pre : List NIdx} {C : Subst → Prop} (b : Bool) (i : Nat) (hpre : ∀ x ∈ pre, ¬ (x.1 = b ∧ x.2.1 = i)) :
    ∀ (line : List Int) (k : Nat) (start rem : Int) (prev : Option NVar) (w : World), line = (F b i).drop k → k ≤ (F b i).length →
      (line ≠ [] → start = lineStart (F b i) k ∧ rem = lineRem (F b i) k) →
      (∀ j, k = j + 1 → prev = some (nvar F N (b, i, j))) → (k = 0 → prev = none) →
      Built ρ w (tabVars (pre ++ lineIdx b i k) nname (ndom F N)) (fun σ => C σ ∧ ∀ j, j + 1 < k → Gap F b i j (val σ)) →
      ∃ w', nonoLoop (npfx b) i (N b) (F b i).length line k start rem prev w =
          (w', .ok ((List.range' k line.length).map (fun k => nvar F N (b, i, k)))) ∧
        Built ρ w' (tabVars (pre ++ lineIdx b i (F b i).length) nname (ndom F N))
          (fun σ => C σ ∧ ∀ j, j + 1 < (F b i).length → Gap F b i j (val σ)) := by
  intro line
  induction line with
  | nil =>
    intro k start rem prev w hl hk _ _ _ hb
    have : k = (F b i).length := by
      have := congrArg List.length hl
      simp at this; omega
    subst this
    exact ⟨w, rfl, hb⟩
  | cons size line ih =>
    intro k start rem prev w hl hk hsr hp1 hp0 hb
    have hklt : k < (F b i).length := by
      have := congrArg List.length hl
      simp at this; omega
    rw [List.drop_eq_getElem_cons hklt] at hl
    obtain ⟨hsz, hline⟩ := List.cons.inj hl
    have hsize : size = (F b i).getD k 0 := by simp [List.getD, hklt, hsz]
    obtain ⟨rfl, rfl⟩ := hsr (by simp)
    obtain ⟨w1, e1, b1⟩ := hb.addTab (b, i, k) (pyRange_nodup _ _) (nname_ok _).1 (by
      intro x hx he
      have := nname_inj he
      subst this
      rcases List.mem_append.1 hx with h | h
      · exact hpre _ h ⟨rfl, rfl⟩
      · simp [lineIdx] at h)
    rw [List.append_assoc, ← lineIdx_succ] at b1
    have hgap : ∃ w2, nonoGap (.var (nname (b, i, k))) prev w1 = (w2, .ok ()) ∧
        Built ρ w2 (tabVars (pre ++ lineIdx b i (k + 1)) nname (ndom F N)) (fun σ => C σ ∧ ∀ j, j + 1 < k + 1 → Gap F b i j (val σ)) := by
      cases k with
      | zero =>
        rw [hp0 rfl]
        exact ⟨w1, rfl, b1.congr (fun σ _ => by simp)⟩
      | succ j =>
        rw [hp1 j rfl]
        have hm : ∀ m, m ≤ j + 1 → nname (b, i, m) ∈ [nname (b, i, j), nname (b, i, j + 1)] → nname (b, i, m) ∈ (tabVars (pre ++ lineIdx b i (j + 1 + 1)) nname (ndom F N)).keys := by
          intro m hm _
          rw [tabVars_keys]
          apply List.mem_map_of_mem
          refine List.mem_append_right _ (List.mem_map.2 ⟨m, List.mem_range.2 (by omega), rfl⟩)
        obtain ⟨w2, e2, b2⟩ := b1.addCmp (xs := [nname (b, i, j), nname (b, i, j + 1)]) .gt (Den.var (x := nname (b, i, j + 1)) (by simp))
          ((Den.var (x := nname (b, i, j)) (by simp)).add (Den.int ((F b i).getD j 0)))
          (by
            intro x hx
            have hx' := hx
            simp only [List.mem_cons, List.not_mem_nil, or_false] at hx
            rcases hx with rfl | rfl
            · exact hm j (by omega) hx'
            · exact hm (j + 1) (by omega) hx')
          (by
            intro x hx
            simp only [List.mem_cons, List.not_mem_nil, or_false] at hx
            rcases hx with rfl | rfl <;> exact (nname_ok _).2)
        refine ⟨w2, e2, b2.congr (fun σ _ => ?_)⟩
        simp only [Cmp.holds, gt_iff_lt, decide_eq_true_eq, and_assoc]
        refine and_congr_right (fun _ => ⟨?_, ?_⟩)
        · rintro ⟨h1, h2⟩ m hm
          by_cases hmj : m = j
          · subst hmj; exact h2
          · exact h1 m (by omega)
        · intro h
          exact ⟨fun m hm => h m (by omega), h j (by omega)⟩
    obtain ⟨w2, e2, b2⟩ := hgap
    obtain ⟨w3, e3, b3⟩ := ih (k + 1) (lineStart (F b i) k + (size + if (k : Int) ≠ ((F b i).length : Int) - 1 then 1 else 0))
      (lineRem (F b i) k - (size + if (k : Int) ≠ ((F b i).length : Int) - 1 then 1 else 0)) (some (nvar F N (b, i, k))) w2 hline hklt
      (by
        intro hne
        have : k + 1 < (F b i).length := by
          have h0 := List.length_pos_iff.2 hne
          rw [hline] at h0; simp at h0; omega
        rw [if_pos (by omega), lineStart_succ hklt, lineRem_succ hklt, hsize]
        exact ⟨rfl, rfl⟩)
      (by intro j hj; have : k = j := by omega
          subst this; rfl)
      (by intro h; omega) b2
    refine ⟨w3, ?_, b3⟩
    rw [nonoLoop]
    simp only [Api.bind_apply]
    have e1' : addIntVariable (pyRange (lineStart (F b i) k) (N b - lineRem (F b i) k + 1)) (some (npfx b ++ toString i ++ "_" ++ toString k)) w =
      (w1, .ok (.var (nname (b, i, k)))) := e1
    rw [e1']
    simp only
    rw [e2]
    simp only
    have hv : (⟨.var (nname (b, i, k)), size, lineStart (F b i) k, N b - lineRem (F b i) k + 1 + size⟩ : NVar) = nvar F N (b, i, k) := by
      rw [hsize]; rfl
    rw [hv, e3]
    simp [List.range'_succ]
    rfl

/-- The blocks in a line, by the variables. -/
def lineVars (b : Bool) (i : Nat) : List NVar := (List.range (F b i).length).map (fun k => nvar F N (b, i, k))

theorem nonoLine_built {ρ : Store} {w : World} {pre : List NIdx} {C : Subst → Prop} (b : Bool) (i : Nat) (hpre : ∀ x ∈ pre, ¬ (x.1 = b ∧ x.2.1 = i))
    (hb : Built ρ w (tabVars pre nname (ndom F N)) C) :
    ∃ w', nonoLine (npfx b) (N b) (F b i, i) w = (w', .ok (lineVars F N b i)) ∧
      Built ρ w' (tabVars (pre ++ lineIdx b i (F b i).length) nname (ndom F N))
        (fun σ => C σ ∧ ∀ j, j + 1 < (F b i).length → Gap F b i j (val σ)) := by
  obtain ⟨w', e, h⟩ := nonoLoop_built F N b i hpre (F b i) 0 0 ((F b i).sum + (F b i).length - 1) none w rfl (by omega)
    (fun _ => ⟨by simp [lineStart], by simp [lineRem]⟩) (by intro j h; omega) (fun _ => rfl)
    (by simpa [lineIdx] using hb)
  refine ⟨w', ?_, h⟩
  simp only [nonoLine, e, lineVars, List.range_eq_range']

/-- All variables of the first `n` lines. -/
def linesIdx (b : Bool) (n : Nat) : List NIdx := (List.range n).flatMap (fun i => lineIdx b i (F b i).length)

theorem mem_linesIdx {b : Bool} {n : Nat} {x : NIdx} : x ∈ linesIdx F b n ↔ x.1 = b ∧ x.2.1 < n ∧ x.2.2 < (F b x.2.1).length := by
  obtain ⟨b', i, k⟩ := x
  simp only [linesIdx, lineIdx, List.mem_flatMap, List.mem_range, List.mem_map, Prod.mk.injEq]
  constructor
  · rintro ⟨i', h1, k', h2, rfl, rfl, rfl⟩; exact ⟨rfl, h1, h2⟩
  · rintro ⟨rfl, h1, h2⟩; exact ⟨i, h1, k, h2, rfl, rfl, rfl⟩

theorem nonoLines_built {ρ : Store} {w : World} {base : List NIdx} {C : Subst → Prop} (b : Bool) (Ls : List (List Int))
    (hF : ∀ i, F b i = Ls.getD i []) (hbase : ∀ x ∈ base, x.1 ≠ b) (hb : Built ρ w (tabVars base nname (ndom F N)) C) :
    ∃ w', Api.each (nonoLine (npfx b) (N b)) Ls.zipIdx w = (w', .ok ((List.range Ls.length).map (lineVars F N b))) ∧
      Built ρ w' (tabVars (base ++ linesIdx F b Ls.length) nname (ndom F N))
        (fun σ => C σ ∧ ∀ i < Ls.length, ∀ j, j + 1 < (F b i).length → Gap F b i j (val σ)) := by
  have hz : Ls.zipIdx = (List.range Ls.length).map (fun i => (F b i, i)) := by
    apply List.ext_getElem
    · simp
    · intro i h1 h2
      have hi : i < Ls.length := by simpa using h1
      simp [hF, List.getD, hi]
  rw [hz]
  have := Api.each_spec (f := fun i => nonoLine (npfx b) (N b) (F b i, i)) (g := lineVars F N b)
    (I := fun pre w => ∀ n, pre = List.range n → Built ρ w (tabVars (base ++ linesIdx F b n) nname (ndom F N))
        (fun σ => C σ ∧ ∀ i < n, ∀ j, j + 1 < (F b i).length → Gap F b i j (val σ))) (List.range Ls.length)
    (by
      intro pre i post w he hw
      have hlen : pre.length < Ls.length := by
        have := congrArg List.length he; simp at this; omega
      have hpre : pre = List.range pre.length := by
        have h1 : (List.range Ls.length).take pre.length = pre := by rw [he]; simp
        rw [List.take_range] at h1
        rw [Nat.min_eq_left (by omega)] at h1
        exact h1.symm
      have hi : i = pre.length := by
        have h1 : (List.range Ls.length)[pre.length]? = some i := by rw [he]; simp
        rw [List.getElem?_range hlen] at h1
        exact (Option.some.inj h1).symm
      subst hi
      obtain ⟨w', e, h⟩ := nonoLine_built F N b pre.length (pre := base ++ linesIdx F b pre.length) (by
        rintro x hx ⟨h1, h2⟩
        rcases List.mem_append.1 hx with h | h
        · exact hbase x h h1
        · have := ((mem_linesIdx F).1 h).2.1; omega) (hw _ hpre)
      refine ⟨w', e, fun n hn => ?_⟩
      have hn' : n = pre.length + 1 := by
        have := congrArg List.length hn; simp at this; omega
      subst hn'
      have : base ++ linesIdx F b (pre.length + 1) = base ++ linesIdx F b pre.length ++ lineIdx b pre.length (F b pre.length).length := by
        simp [linesIdx, List.range_succ]
      rw [this]
      refine h.congr (fun σ _ => ?_)
      rw [and_assoc]
      refine and_congr_right (fun _ => ⟨?_, ?_⟩)
      · rintro ⟨h1, h2⟩ i hi
        by_cases hi' : i = pre.length
        · subst hi'; exact h2
        · exact h1 i (by omega)
      · intro h
        exact ⟨fun i hi => h i (by omega), h _ (by omega)⟩)
    w (by
      intro n hn
      have : n = 0 := by have := congrArg List.length hn; simp at this; omega
      subst this
      have h0 : base ++ linesIdx F b 0 = base := by simp [linesIdx]
      rw [h0]
      exact hb.congr (fun σ _ => by simp))
  obtain ⟨w', e, h⟩ := this
  refine ⟨w', ?_, h _ rfl⟩
  rw [← e]
  clear * -
  generalize List.range Ls.length = l
  induction l generalizing w with
  | nil => rfl
  | cons a l ih =>
    simp only [List.map_cons, Api.each, Api.bind_apply]
    cases nonoLine (npfx b) (N b) (F b a, a) w with
    | mk w1 r => cases r with
      | error e => rfl
      | ok x => simp only; rw [ih]

/-! The cells. -/

def nind (size : Int) (p c : Int) : Int := if p ≤ c ∧ c < p + size then 1 else 0

theorem nind_den {xs : List Name} {x : Name} (hx : x ∈ xs) (size c : Int) :
    Den xs ((Obj.cmp .le (.expr (.var x)) (.int c)).and (Obj.cmp .lt (.int c) ((Obj.expr (.var x)).add (.int size)))) (fun s => nind size (s x) c) := by
  refine ((Den.cmp .le (Den.var hx) (Den.int c)).and (Den.cmp .lt (Den.int c) ((Den.var hx).add (Den.int size))) (.inl ⟨_, rfl⟩)).congr (fun s => ?_)
  simp only [Cmp.holds, decide_eq_true_eq, nind]
  by_cases h1 : s x ≤ c <;> by_cases h2 : c < s x + size <;> simp [h1, h2]

/-- The number of blocks of the line over the cell. -/
def lineCount (b : Bool) (i : Nat) (s : Name → Int) (c : Nat) : Int :=
  ((List.range (F b i).length).map (fun k => nind ((F b i).getD k 0) (s (nname (b, i, k))) c)).sum

theorem sum_filter_ind {α : Type} (l : List α) (p : α → Bool) (f : α → Int) (h : ∀ x ∈ l, p x = false → f x = 0) :
    ((l.filter p).map f).sum = (l.map f).sum := by
  induction l with
  | nil => rfl
  | cons a l ih =>
    have ih := ih (fun x hx => h x (by simp [hx]))
    cases hp : p a with
    | true => simp [List.filter_cons, hp, ih]
    | false => simp [List.filter_cons, hp, ih, h a (by simp) hp]

/-- The expressions of a cell: what they denote, and that it is the number of blocks over the cell. -/
theorem nonoSide_den (b : Bool) (i c : Nat) :
    ∃ f, Den ((lineIdx b i (F b i).length).map nname) (Obj.pySum (nonoSide (lineVars F N b i) c)) f ∧
      (nonoSide (lineVars F N b i) c = [] → ∀ s, f s = 0) ∧
      ∀ is σ, (∀ x ∈ lineIdx b i (F b i).length, x ∈ is) → OnVars (tabVars is nname (ndom F N)) σ → f (val σ) = lineCount F b i (val σ) c := by
  let p : NVar → Bool := fun v => decide (v.start ≤ (c : Int)) && decide ((c : Int) < v.stop)
  let ks := (List.range (F b i).length).filter (p ∘ fun k => nvar F N (b, i, k))
  have he : nonoSide (lineVars F N b i) c = ks.map (fun k => (Obj.cmp .le (.expr (.var (nname (b, i, k)))) (.int c)).and
      (Obj.cmp .lt (.int c) ((Obj.expr (.var (nname (b, i, k)))).add (.int ((F b i).getD k 0))))) := by
    unfold nonoSide lineVars
    rw [List.filter_map, List.map_map]
    rfl
  refine ⟨fun s => (ks.map (fun k => nind ((F b i).getD k 0) (s (nname (b, i, k))) c)).sum, ?_, ?_, ?_⟩
  · rw [he]
    refine Den.sum (fun k hk => nind_den ?_ _ _)
    exact List.mem_map_of_mem (List.mem_map.2 ⟨k, (List.mem_filter.1 hk).1, rfl⟩)
  · intro h0 s
    rw [he] at h0
    simp only [List.map_eq_nil_iff] at h0
    simp only [h0, List.map_nil, List.sum_nil]
  · intro is σ hin hσ
    refine sum_filter_ind _ _ _ (fun k hk hp => ?_)
    have hk' : (b, i, k) ∈ is := hin _ (List.mem_map.2 ⟨k, hk, rfl⟩)
    obtain ⟨v, hv, hg⟩ := hσ.val hk'
    rw [val_eq hg]
    have hv' := mem_pyRange.1 hv
    simp only [Function.comp, p, nvar, Bool.and_eq_false_iff, decide_eq_false_iff_not] at hp
    simp only [nind]
    rw [if_neg]
    simp only [ndom] at hv'
    omega

theorem nonoCell_built {ρ : Store} {w : World} {is : List NIdx} {C : Subst → Prop} {nr nc r c : Nat} (hr : r < nr) (hc : c < nc)
    (h1 : ∀ x ∈ lineIdx true r (F true r).length, x ∈ is) (h2 : ∀ x ∈ lineIdx false c (F false c).length, x ∈ is)
    (hb : Built ρ w (tabVars is nname (ndom F N)) C) :
    ∃ w', nonoCell ((List.range nr).map (lineVars F N true)) ((List.range nc).map (lineVars F N false)) (r, c) w = (w', .ok ()) ∧
      Built ρ w' (tabVars is nname (ndom F N)) (fun σ => C σ ∧ lineCount F true r (val σ) c = lineCount F false c (val σ) r) := by
  have g1 : ((List.range nr).map (lineVars F N true)).getD r [] = lineVars F N true r := by simp [List.getD, hr]
  have g2 : ((List.range nc).map (lineVars F N false)).getD c [] = lineVars F N false c := by simp [List.getD, hc]
  obtain ⟨f, d1, z1, v1⟩ := nonoSide_den F N true r c
  obtain ⟨g, d2, z2, v2⟩ := nonoSide_den F N false c r
  unfold nonoCell
  simp only [g1, g2]
  by_cases he : ((nonoSide (lineVars F N true r) c).isEmpty && (nonoSide (lineVars F N false c) r).isEmpty) = true
  · rw [if_pos he]
    refine ⟨w, rfl, hb.congr (fun σ hσ => ?_)⟩
    simp only [Bool.and_eq_true, List.isEmpty_iff] at he
    rw [← v1 is σ h1 hσ, ← v2 is σ h2 hσ, z1 he.1, z2 he.2]
    simp
  · rw [if_neg he]
    let xs := (lineIdx true r (F true r).length).map nname ++ (lineIdx false c (F false c).length).map nname
    obtain ⟨w', e, b'⟩ := hb.addCmp (xs := xs) .eq (d1.mono (fun x hx => List.mem_append_left _ hx)) (d2.mono (fun x hx => List.mem_append_right _ hx))
      (by
        intro x hx
        rw [tabVars_keys]
        rcases List.mem_append.1 hx with h | h
        · obtain ⟨y, hy, rfl⟩ := List.mem_map.1 h; exact List.mem_map_of_mem (h1 y hy)
        · obtain ⟨y, hy, rfl⟩ := List.mem_map.1 h; exact List.mem_map_of_mem (h2 y hy))
      (by
        intro x hx
        rcases List.mem_append.1 hx with h | h <;> (obtain ⟨y, _, rfl⟩ := List.mem_map.1 h; exact (nname_ok y).2))
      (.left (fun m => pySum_not_const (fun o ho => by
        unfold nonoSide lineVars at ho
        rw [List.filter_map, List.map_map] at ho
        obtain ⟨k, _, rfl⟩ := List.mem_map.1 ho
        exact ⟨_, rfl, .other _ _ (by simp) (by simp)⟩) m))
    refine ⟨w', e, b'.congr (fun σ hσ => ?_)⟩
    rw [v1 is σ h1 hσ, v2 is σ h2 hσ]
    simp [Cmp.holds]

end

/-- The clues of a side. -/
def clueF (rows cols : List (List Int)) (b : Bool) (i : Nat) : List Int := (if b then rows else cols).getD i []

def sideN (rows cols : List (List Int)) (b : Bool) : Nat := if b then cols.length else rows.length

/-- All variables. -/
def nonoIdx (rows cols : List (List Int)) : List NIdx := linesIdx (clueF rows cols) true rows.length ++ linesIdx (clueF rows cols) false cols.length

theorem mem_nonoCells {nr nc : Nat} {k : Nat × Nat} : k ∈ nonoCells nr nc ↔ k.1 < nr ∧ k.2 < nc := by
  obtain ⟨r, c⟩ := k
  simp [nonoCells]

theorem nono_built (h : Heap) (rows cols : List (List Int)) :
    ∃ w, nonoBuild rows cols ⟨.empty, h⟩ = (w, .ok ((List.range rows.length).map (lineVars (clueF rows cols) (sideN rows cols) true))) ∧
      Built h.params w (tabVars (nonoIdx rows cols) nname (ndom (clueF rows cols) (sideN rows cols)))
        (fun σ => (∀ i < rows.length, ∀ j, j + 1 < (clueF rows cols true i).length → Gap (clueF rows cols) true i j (val σ)) ∧
          (∀ i < cols.length, ∀ j, j + 1 < (clueF rows cols false i).length → Gap (clueF rows cols) false i j (val σ)) ∧
          ∀ r < rows.length, ∀ c < cols.length, lineCount (clueF rows cols) true r (val σ) c = lineCount (clueF rows cols) false c (val σ) r) := by
  obtain ⟨w1, e1, b1⟩ := nonoLines_built (clueF rows cols) (sideN rows cols) (base := []) true rows (fun _ => rfl) (by simp) (BuiltC.empty h)
  obtain ⟨w2, e2, b2⟩ := nonoLines_built (clueF rows cols) (sideN rows cols) false cols (fun _ => rfl) (by
    intro x hx
    have := ((mem_linesIdx _).1 (by simpa using hx)).1
    rw [this]; simp) b1
  obtain ⟨w3, e3, b3⟩ := Api.each_spec
    (f := nonoCell ((List.range rows.length).map (lineVars (clueF rows cols) (sideN rows cols) true))
      ((List.range cols.length).map (lineVars (clueF rows cols) (sideN rows cols) false))) (g := fun _ => ())
    (I := fun pre w => Built h.params w (tabVars (nonoIdx rows cols) nname (ndom (clueF rows cols) (sideN rows cols)))
        (fun σ => ((∀ i < rows.length, ∀ j, j + 1 < (clueF rows cols true i).length → Gap (clueF rows cols) true i j (val σ)) ∧
          (∀ i < cols.length, ∀ j, j + 1 < (clueF rows cols false i).length → Gap (clueF rows cols) false i j (val σ))) ∧
          ∀ k ∈ pre, lineCount (clueF rows cols) true k.1 (val σ) k.2 = lineCount (clueF rows cols) false k.2 (val σ) k.1))
    (nonoCells rows.length cols.length)
    (by
      intro pre k post w he hw
      obtain ⟨hr, hc⟩ := mem_nonoCells.1 (show k ∈ nonoCells rows.length cols.length by rw [he]; simp)
      obtain ⟨w', e, b⟩ := nonoCell_built (clueF rows cols) (sideN rows cols) hr hc
        (fun x hx => by
          obtain ⟨j, hj, rfl⟩ := List.mem_map.1 hx
          exact List.mem_append_left _ ((mem_linesIdx _).2 ⟨rfl, hr, by simpa using hj⟩))
        (fun x hx => by
          obtain ⟨j, hj, rfl⟩ := List.mem_map.1 hx
          exact List.mem_append_right _ ((mem_linesIdx _).2 ⟨rfl, hc, by simpa using hj⟩)) hw
      refine ⟨w', e, b.congr (fun σ _ => ?_)⟩
      rw [and_assoc]
      refine and_congr_right (fun _ => ⟨?_, ?_⟩)
      · rintro ⟨h1, h2⟩ q hq
        rcases List.mem_append.1 hq with hq | hq
        · exact h1 q hq
        · rw [List.mem_singleton.1 hq]; exact h2
      · intro h
        exact ⟨fun q hq => h q (List.mem_append_left _ hq), h k (by simp)⟩)
    w2 (b2.congr (fun σ _ => by simp))
  refine ⟨w3, ?_, b3.congr (fun σ _ => ?_)⟩
  · have e1' : Api.each (nonoLine "r" cols.length) rows.zipIdx ⟨.empty, h⟩ = _ := e1
    have e2' : Api.each (nonoLine "c" rows.length) cols.zipIdx w1 = _ := e2
    unfold nonoBuild
    simp only [Api.bind_apply, e1', e2', e3]
    rfl
  · rw [and_assoc]
    refine and_congr_right (fun _ => and_congr_right (fun _ => ⟨?_, ?_⟩))
    · intro h r hr c hc; exact h (r, c) (mem_nonoCells.2 ⟨hr, hc⟩)
    · intro h k hk; obtain ⟨hr, hc⟩ := mem_nonoCells.1 hk; exact h _ hr _ hc

end Satisfy
