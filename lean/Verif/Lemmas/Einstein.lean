import Verif.Einstein
import Verif.SpecEinstein
import Verif.Lemmas.Graph
import Verif.Lemmas.Queens
/-! Lemmas on the model of the Einstein riddle. -/

namespace Satisfy

def ownerNames : List Name := ["owner_English", "owner_Swede", "owner_Dane", "owner_Norwegian", "owner_German"]
def colorNames : List Name := ["color_red", "color_green", "color_white", "color_yellow", "color_blue"]
def drinkNames : List Name := ["drink_water", "drink_coffee", "drink_tea", "drink_milk", "drink_beer"]
def smokeNames : List Name := ["smoke_Pall_Mall", "smoke_Prince", "smoke_Dunhill", "smoke_Blend", "smoke_Blue_Master"]
def animalNames : List Name := ["animal_cats", "animal_a_dog", "animal_birds", "animal_a_horse", "animal_a_zebra"]
def pmNames : List Name := ["Blend_cats", "Dunhill_horse", "Norwegian_blue", "water_Blend"]

def einNames : List Name := ownerNames ++ colorNames ++ drinkNames ++ smokeNames ++ animalNames ++ pmNames

def einDom (x : Name) : List Int := if x ∈ pmNames then [-1, 1] else pyRange 1 6

theorem einNames_ok : ∀ x ∈ einNames, checkName x = true ∧ NameOk x := by decide +kernel

theorem einNames_nodup : einNames.Nodup := by decide +kernel

theorem einDom_nodup (x : Name) : (einDom x).Nodup := by
  unfold einDom; split
  · decide
  · exact pyRange_nodup _ _

abbrev einVars (is : List Name) : Dict (List Int) := tabVars is id einDom

theorem einVars_keys (is : List Name) : (einVars is).keys = is := by simp [einVars, tabVars_keys]

theorem einGroup_built {ρ : Store} {w : World} {is : List Name} {C : Subst → Prop} (hb : Built ρ w (einVars is) C) (attr : String) (values : List String)
    (names : List Name) (hn : names = values.map (fun v => mkname [attr, v])) (hi : (is ++ names).Nodup)
    (hd : ∀ x ∈ names, checkName x = true ∧ x ∉ pmNames) :
    ∃ w', einGroup attr values w = (w', .ok (values.map (fun v => (v, .var (mkname [attr, v]))))) ∧ Built ρ w' (einVars (is ++ names)) C := by
  subst hn
  refine Api.each_spec (I := fun pre w => Built ρ w (einVars (is ++ pre.map (fun v => mkname [attr, v]))) C) values ?_ w (by simpa using hb)
  intro pre v post w he hw
  have hm : mkname [attr, v] ∈ values.map (fun v => mkname [attr, v]) := List.mem_map_of_mem (by simp [he])
  obtain ⟨w', h1, h2⟩ := hw.addTab (mkname [attr, v]) (einDom_nodup _) (hd _ hm).1 (by
    intro j hj hji
    rw [he, List.map_append, List.map_cons, ← List.append_assoc] at hi
    have hji : j = mkname [attr, v] := hji
    exact (List.nodup_append.1 hi).2.2 j hj _ (by simp) hji)
  have hdom : einDom (mkname [attr, v]) = pyRange 1 6 := by simp [einDom, (hd _ hm).2]
  rw [hdom] at h1
  refine ⟨w', ?_, by simpa [List.append_assoc] using h2⟩
  simp only [Api.bind_apply]
  simp only [id] at h1
  rw [h1]; rfl

section
variable {ρ : Store} {w : World} {is : List Name} {C : Subst → Prop}

theorem einDiff_built (hb : Built ρ w (einVars is) C) {d : List (String × Expr)} (ns : List Name) (hd : d.map (fun p => p.2.name) = ns)
    (hs : ∀ x ∈ ns, x ∈ is) :
    ∃ w', einDiff d w = (w', .ok ()) ∧ Built ρ w' (einVars is) (fun σ => C σ ∧ ∀ x ∈ ns, ∀ y ∈ ns, x ≠ y → val σ x ≠ val σ y) := by
  obtain ⟨w', h1, h2⟩ := hb.addAllDiff ns (by intro x hx; rw [einVars_keys]; exact hs x hx)
  refine ⟨w', by unfold einDiff; rw [hd]; exact h1, h2.congr (fun σ hσ => and_congr_right (fun _ => ?_))⟩
  have := allDiff_tab (is := is) (nm := id) (dom := einDom) hσ (fun i j h => h) (js := ns) hs
  simpa using this

variable {d d' : List (String × Expr)} {k k' : String} {x y : Name}

theorem einSame_built (hb : Built ρ w (einVars is) C) (x y : Name) (h1 : aat d k = .ok (.var x)) (h2 : aat d' k' = .ok (.var y))
    (hx : x ∈ is ∧ NameOk x) (hy : y ∈ is ∧ NameOk y) :
    ∃ w', einSame d k d' k' w = (w', .ok ()) ∧ Built ρ w' (einVars is) (fun σ => C σ ∧ val σ x = val σ y) := by
  obtain ⟨w', e1, b1⟩ := hb.addCmp (xs := [x, y]) .eq (Den.var (x := x) (by simp)) (Den.var (x := y) (by simp))
    (by intro z hz; rw [einVars_keys]; simp at hz; rcases hz with rfl | rfl; exacts [hx.1, hy.1])
    (by intro z hz; simp at hz; rcases hz with rfl | rfl; exacts [hx.2, hy.2])
  refine ⟨w', ?_, b1.congr (fun σ _ => by simp [Cmp.holds])⟩
  simp only [einSame, Api.bind_apply, Api.lift, h1, h2]
  exact e1

theorem einLeft_built (hb : Built ρ w (einVars is) C) (x y : Name) (h1 : aat d k = .ok (.var x)) (h2 : aat d' k' = .ok (.var y))
    (hx : x ∈ is ∧ NameOk x) (hy : y ∈ is ∧ NameOk y) :
    ∃ w', einLeft d k d' k' w = (w', .ok ()) ∧ Built ρ w' (einVars is) (fun σ => C σ ∧ val σ x = val σ y - 1) := by
  obtain ⟨w', e1, b1⟩ := hb.addCmp (xs := [x, y]) .eq (Den.var (x := x) (by simp))
    (Den.sub (Den.var (x := y) (by simp)) (Den.int 1) (by simp) (by simp))
    (by intro z hz; rw [einVars_keys]; simp at hz; rcases hz with rfl | rfl; exacts [hx.1, hy.1])
    (by intro z hz; simp at hz; rcases hz with rfl | rfl; exacts [hx.2, hy.2])
  refine ⟨w', ?_, b1.congr (fun σ _ => by simp [Cmp.holds])⟩
  simp only [einLeft, Api.bind_apply, Api.lift, h1, h2]
  exact e1

theorem einAt_built (hb : Built ρ w (einVars is) C) (x : Name) (n : Int) (h1 : aat d k = .ok (.var x)) (hx : x ∈ is ∧ NameOk x) :
    ∃ w', einAt d k n w = (w', .ok ()) ∧ Built ρ w' (einVars is) (fun σ => C σ ∧ val σ x = n) := by
  obtain ⟨w', e1, b1⟩ := hb.addCmp (xs := [x]) .eq (Den.var (x := x) (by simp)) (Den.int n)
    (by intro z hz; rw [einVars_keys]; simp at hz; rcases hz with rfl; exact hx.1)
    (by intro z hz; simp at hz; rcases hz with rfl; exact hx.2)
  refine ⟨w', ?_, b1.congr (fun σ _ => by simp [Cmp.holds])⟩
  simp only [einAt, Api.bind_apply, Api.lift, h1]
  exact e1

theorem einNext_built (hb : Built ρ w (einVars is) C) (x y z : Name) (h1 : aat d k = .ok (.var x)) (h2 : aat d' k' = .ok (.var y))
    (hx : x ∈ is ∧ NameOk x) (hy : y ∈ is ∧ NameOk y) (hz : z ∉ is ∧ z ∈ pmNames) :
    ∃ w', einNext d k d' k' z w = (w', .ok ()) ∧ Built ρ w' (einVars (is ++ [z])) (fun σ => C σ ∧ val σ x - val σ y = val σ z) := by
  have hok : checkName z = true ∧ NameOk z := einNames_ok z (by simp [einNames, hz.2])
  obtain ⟨w1, e1, b1⟩ := hb.addTab z (einDom_nodup _) hok.1 (by
    intro j hj hji
    have hji : j = z := hji
    exact hz.1 (hji ▸ hj))
  have hdom : einDom z = [-1, 1] := by simp [einDom, hz.2]
  rw [hdom] at e1
  simp only [id] at e1
  obtain ⟨w2, e2, b2⟩ := b1.addCmp (xs := [x, y, z]) .eq
    (Den.sub (Den.var (x := x) (by simp)) (Den.var (x := y) (by simp)) (by simp) (by simp)) (Den.var (x := z) (by simp))
    (by intro u hu; rw [einVars_keys]; simp at hu; rcases hu with rfl | rfl | rfl; exacts [by simp [hx.1], by simp [hy.1], by simp])
    (by intro u hu; simp at hu; rcases hu with rfl | rfl | rfl; exacts [hx.2, hy.2, hok.2]) (.right (by simp))
  refine ⟨w2, ?_, b2.congr (fun σ _ => by simp [Cmp.holds])⟩
  simp only [einNext, Api.bind_apply, Api.lift, h1, h2, e1]
  exact e2

end

/-- What the constraints say. -/
structure EinC (s : Name → Int) : Prop where
  owner : ∀ x ∈ ownerNames, ∀ y ∈ ownerNames, x ≠ y → s x ≠ s y
  color : ∀ x ∈ colorNames, ∀ y ∈ colorNames, x ≠ y → s x ≠ s y
  drink : ∀ x ∈ drinkNames, ∀ y ∈ drinkNames, x ≠ y → s x ≠ s y
  smoke : ∀ x ∈ smokeNames, ∀ y ∈ smokeNames, x ≠ y → s x ≠ s y
  animal : ∀ x ∈ animalNames, ∀ y ∈ animalNames, x ≠ y → s x ≠ s y
  s1 : s "owner_English" = s "color_red"
  s2 : s "owner_Swede" = s "animal_a_dog"
  s3 : s "owner_Dane" = s "drink_tea"
  s4 : s "color_green" = s "color_white" - 1
  s5 : s "color_green" = s "drink_coffee"
  s6 : s "smoke_Pall_Mall" = s "animal_birds"
  s7 : s "color_yellow" = s "smoke_Dunhill"
  s8 : s "drink_milk" = 3
  s9 : s "owner_Norwegian" = 1
  s10 : s "smoke_Blend" - s "animal_cats" = s "Blend_cats"
  s11 : s "smoke_Dunhill" - s "animal_a_horse" = s "Dunhill_horse"
  s12 : s "smoke_Blue_Master" = s "drink_beer"
  s13 : s "owner_German" = s "smoke_Prince"
  s14 : s "owner_Norwegian" - s "color_blue" = s "Norwegian_blue"
  s15 : s "drink_water" - s "smoke_Blend" = s "water_Blend"

def einDict (attr : String) (values : List String) : List (String × Expr) := values.map (fun v => (v, .var (mkname [attr, v])))

/-- What the construction returns. -/
def einResult : List (String × List (String × Expr)) := einAttrs.map (fun p => (p.1, einDict p.1 p.2))

theorem ein_built (h : Heap) : ∃ w, einBuild ⟨.empty, h⟩ = (w, .ok einResult) ∧ Built h.params w (einVars einNames) (fun σ => EinC (val σ)) := by
  have b0 : Built h.params ⟨.empty, h⟩ (einVars []) (fun _ => True) := BuiltC.empty h
  obtain ⟨w1, e1, b1⟩ := einGroup_built b0 "owner" ["English", "Swede", "Dane", "Norwegian", "German"] ownerNames (by decide +kernel) (by decide +kernel) (by decide +kernel)
  obtain ⟨w2, e2, b2⟩ := einGroup_built b1 "color" ["red", "green", "white", "yellow", "blue"] colorNames (by decide +kernel) (by decide +kernel) (by decide +kernel)
  obtain ⟨w3, e3, b3⟩ := einGroup_built b2 "drink" ["water", "coffee", "tea", "milk", "beer"] drinkNames (by decide +kernel) (by decide +kernel) (by decide +kernel)
  obtain ⟨w4, e4, b4⟩ := einGroup_built b3 "smoke" ["Pall Mall", "Prince", "Dunhill", "Blend", "Blue Master"] smokeNames (by decide +kernel) (by decide +kernel) (by decide +kernel)
  obtain ⟨w5, e5, b5⟩ := einGroup_built b4 "animal" ["cats", "a dog", "birds", "a horse", "a zebra"] animalNames (by decide +kernel) (by decide +kernel) (by decide +kernel)
  obtain ⟨w6, e6, b6⟩ := einDiff_built b5 (d := (einDict "owner" ["English", "Swede", "Dane", "Norwegian", "German"])) ownerNames (by decide +kernel) (by decide +kernel)
  obtain ⟨w7, e7, b7⟩ := einDiff_built b6 (d := (einDict "color" ["red", "green", "white", "yellow", "blue"])) colorNames (by decide +kernel) (by decide +kernel)
  obtain ⟨w8, e8, b8⟩ := einDiff_built b7 (d := (einDict "drink" ["water", "coffee", "tea", "milk", "beer"])) drinkNames (by decide +kernel) (by decide +kernel)
  obtain ⟨w9, e9, b9⟩ := einDiff_built b8 (d := (einDict "smoke" ["Pall Mall", "Prince", "Dunhill", "Blend", "Blue Master"])) smokeNames (by decide +kernel) (by decide +kernel)
  obtain ⟨w10, e10, b10⟩ := einDiff_built b9 (d := (einDict "animal" ["cats", "a dog", "birds", "a horse", "a zebra"])) animalNames (by decide +kernel) (by decide +kernel)
  obtain ⟨w11, e11, b11⟩ := einSame_built b10 (d := (einDict "owner" ["English", "Swede", "Dane", "Norwegian", "German"])) (k := "English") (d' := (einDict "color" ["red", "green", "white", "yellow", "blue"])) (k' := "red") "owner_English" "color_red" (by rfl) (by rfl) (by decide +kernel) (by decide +kernel)
  obtain ⟨w12, e12, b12⟩ := einSame_built b11 (d := (einDict "owner" ["English", "Swede", "Dane", "Norwegian", "German"])) (k := "Swede") (d' := (einDict "animal" ["cats", "a dog", "birds", "a horse", "a zebra"])) (k' := "a dog") "owner_Swede" "animal_a_dog" (by rfl) (by rfl) (by decide +kernel) (by decide +kernel)
  obtain ⟨w13, e13, b13⟩ := einSame_built b12 (d := (einDict "owner" ["English", "Swede", "Dane", "Norwegian", "German"])) (k := "Dane") (d' := (einDict "drink" ["water", "coffee", "tea", "milk", "beer"])) (k' := "tea") "owner_Dane" "drink_tea" (by rfl) (by rfl) (by decide +kernel) (by decide +kernel)
  obtain ⟨w14, e14, b14⟩ := einLeft_built b13 (d := (einDict "color" ["red", "green", "white", "yellow", "blue"])) (k := "green") (d' := (einDict "color" ["red", "green", "white", "yellow", "blue"])) (k' := "white") "color_green" "color_white" (by rfl) (by rfl) (by decide +kernel) (by decide +kernel)
  obtain ⟨w15, e15, b15⟩ := einSame_built b14 (d := (einDict "color" ["red", "green", "white", "yellow", "blue"])) (k := "green") (d' := (einDict "drink" ["water", "coffee", "tea", "milk", "beer"])) (k' := "coffee") "color_green" "drink_coffee" (by rfl) (by rfl) (by decide +kernel) (by decide +kernel)
  obtain ⟨w16, e16, b16⟩ := einSame_built b15 (d := (einDict "smoke" ["Pall Mall", "Prince", "Dunhill", "Blend", "Blue Master"])) (k := "Pall Mall") (d' := (einDict "animal" ["cats", "a dog", "birds", "a horse", "a zebra"])) (k' := "birds") "smoke_Pall_Mall" "animal_birds" (by rfl) (by rfl) (by decide +kernel) (by decide +kernel)
  obtain ⟨w17, e17, b17⟩ := einSame_built b16 (d := (einDict "color" ["red", "green", "white", "yellow", "blue"])) (k := "yellow") (d' := (einDict "smoke" ["Pall Mall", "Prince", "Dunhill", "Blend", "Blue Master"])) (k' := "Dunhill") "color_yellow" "smoke_Dunhill" (by rfl) (by rfl) (by decide +kernel) (by decide +kernel)
  obtain ⟨w18, e18, b18⟩ := einAt_built b17 (d := (einDict "drink" ["water", "coffee", "tea", "milk", "beer"])) (k := "milk") "drink_milk" 3 (by rfl) (by decide +kernel)
  obtain ⟨w19, e19, b19⟩ := einAt_built b18 (d := (einDict "owner" ["English", "Swede", "Dane", "Norwegian", "German"])) (k := "Norwegian") "owner_Norwegian" 1 (by rfl) (by decide +kernel)
  obtain ⟨w20, e20, b20⟩ := einNext_built b19 (d := (einDict "smoke" ["Pall Mall", "Prince", "Dunhill", "Blend", "Blue Master"])) (k := "Blend") (d' := (einDict "animal" ["cats", "a dog", "birds", "a horse", "a zebra"])) (k' := "cats") "smoke_Blend" "animal_cats" "Blend_cats" (by rfl) (by rfl) (by decide +kernel) (by decide +kernel) (by decide +kernel)
  obtain ⟨w21, e21, b21⟩ := einNext_built b20 (d := (einDict "smoke" ["Pall Mall", "Prince", "Dunhill", "Blend", "Blue Master"])) (k := "Dunhill") (d' := (einDict "animal" ["cats", "a dog", "birds", "a horse", "a zebra"])) (k' := "a horse") "smoke_Dunhill" "animal_a_horse" "Dunhill_horse" (by rfl) (by rfl) (by decide +kernel) (by decide +kernel) (by decide +kernel)
  obtain ⟨w22, e22, b22⟩ := einSame_built b21 (d := (einDict "smoke" ["Pall Mall", "Prince", "Dunhill", "Blend", "Blue Master"])) (k := "Blue Master") (d' := (einDict "drink" ["water", "coffee", "tea", "milk", "beer"])) (k' := "beer") "smoke_Blue_Master" "drink_beer" (by rfl) (by rfl) (by decide +kernel) (by decide +kernel)
  obtain ⟨w23, e23, b23⟩ := einSame_built b22 (d := (einDict "owner" ["English", "Swede", "Dane", "Norwegian", "German"])) (k := "German") (d' := (einDict "smoke" ["Pall Mall", "Prince", "Dunhill", "Blend", "Blue Master"])) (k' := "Prince") "owner_German" "smoke_Prince" (by rfl) (by rfl) (by decide +kernel) (by decide +kernel)
  obtain ⟨w24, e24, b24⟩ := einNext_built b23 (d := (einDict "owner" ["English", "Swede", "Dane", "Norwegian", "German"])) (k := "Norwegian") (d' := (einDict "color" ["red", "green", "white", "yellow", "blue"])) (k' := "blue") "owner_Norwegian" "color_blue" "Norwegian_blue" (by rfl) (by rfl) (by decide +kernel) (by decide +kernel) (by decide +kernel)
  obtain ⟨w25, e25, b25⟩ := einNext_built b24 (d := (einDict "drink" ["water", "coffee", "tea", "milk", "beer"])) (k := "water") (d' := (einDict "smoke" ["Pall Mall", "Prince", "Dunhill", "Blend", "Blue Master"])) (k' := "Blend") "drink_water" "smoke_Blend" "water_Blend" (by rfl) (by rfl) (by decide +kernel) (by decide +kernel) (by decide +kernel)
  refine ⟨w25, ?_, ?_⟩
  · unfold einBuild einRules
    simp only [Api.bind_apply, e1, e2, e3, e4, e5]
    simp only [einDict] at e6 e7 e8 e9 e10 e11 e12 e13 e14 e15 e16 e17 e18 e19 e20 e21 e22 e23 e24 e25
    simp only [e6, e7, e8, e9, e10, e11, e12, e13, e14, e15, e16, e17, e18, e19, e20, e21, e22, e23, e24, e25]
    rfl
  · have hk : [] ++ ownerNames ++ colorNames ++ drinkNames ++ smokeNames ++ animalNames ++ ["Blend_cats"] ++ ["Dunhill_horse"] ++ ["Norwegian_blue"] ++
        ["water_Blend"] = einNames := by rfl
    rw [hk] at b25
    refine b25.congr (fun σ _ => ⟨?_, ?_⟩)
    · rintro ⟨⟨⟨⟨⟨⟨⟨⟨⟨⟨⟨⟨⟨⟨⟨⟨⟨⟨⟨⟨_, h1⟩, h2⟩, h3⟩, h4⟩, h5⟩, h6⟩, h7⟩, h8⟩, h9⟩, h10⟩, h11⟩, h12⟩, h13⟩, h14⟩, h15⟩, h16⟩, h17⟩, h18⟩, h19⟩, h20⟩
      exact ⟨h1, h2, h3, h4, h5, h6, h7, h8, h9, h10, h11, h12, h13, h14, h15, h16, h17, h18, h19, h20⟩
    · rintro ⟨h1, h2, h3, h4, h5, h6, h7, h8, h9, h10, h11, h12, h13, h14, h15, h16, h17, h18, h19, h20⟩
      exact ⟨⟨⟨⟨⟨⟨⟨⟨⟨⟨⟨⟨⟨⟨⟨⟨⟨⟨⟨⟨trivial, h1⟩, h2⟩, h3⟩, h4⟩, h5⟩, h6⟩, h7⟩, h8⟩, h9⟩, h10⟩, h11⟩, h12⟩, h13⟩, h14⟩, h15⟩, h16⟩, h17⟩, h18⟩, h19⟩, h20⟩

end Satisfy
