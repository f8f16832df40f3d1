import Verif.Lemmas.Einstein
import Verif.Props.Graph
import Mathlib.Data.List.Permutation
/-! C43: the Einstein riddle. -/

namespace Satisfy.Props

/-! ## The constraints have one solution -/

/-- The arrangements of five numbers. -/
def perms5 : List (List Int) := List.permutations' [1, 2, 3, 4, 5]

set_option synthInstance.maxSize 2000 in
set_option synthInstance.maxHeartbeats 400000 in
theorem ein_search : ∀ o ∈ perms5, o.getD 3 0 = 1 →
    ∀ c ∈ perms5, (o.getD 0 0 = c.getD 0 0 ∧ c.getD 1 0 = c.getD 2 0 - 1 ∧ (o.getD 3 0 - c.getD 4 0 = 1 ∨ o.getD 3 0 - c.getD 4 0 = -1)) →
    ∀ d ∈ perms5, (o.getD 2 0 = d.getD 2 0 ∧ c.getD 1 0 = d.getD 1 0 ∧ d.getD 3 0 = 3) →
    ∀ s ∈ perms5, (c.getD 3 0 = s.getD 2 0 ∧ s.getD 4 0 = d.getD 4 0 ∧ o.getD 4 0 = s.getD 1 0 ∧
      (d.getD 0 0 - s.getD 3 0 = 1 ∨ d.getD 0 0 - s.getD 3 0 = -1)) →
    ∀ a ∈ perms5, (o.getD 1 0 = a.getD 1 0 ∧ s.getD 0 0 = a.getD 2 0 ∧ (s.getD 3 0 - a.getD 0 0 = 1 ∨ s.getD 3 0 - a.getD 0 0 = -1) ∧
      (s.getD 2 0 - a.getD 3 0 = 1 ∨ s.getD 2 0 - a.getD 3 0 = -1)) →
    o = [3, 5, 2, 1, 4] ∧ c = [3, 4, 5, 1, 2] ∧ d = [1, 4, 2, 3, 5] ∧ s = [3, 4, 1, 2, 5] ∧ a = [1, 5, 3, 2, 4] := by decide +kernel

theorem mem_perms5 {l : List Int} (hl : l.length = 5) (hn : l.Nodup) (hd : ∀ v ∈ l, v ∈ pyRange 1 6) : l ∈ perms5 := by
  unfold perms5
  rw [List.mem_permutations']
  refine (List.subperm_of_subset hn (fun v hv => ?_)).perm_of_length_le (by simp [hl])
  have := mem_pyRange.1 (hd v hv)
  simp
  omega

theorem names_perm {s : Name → Int} {ns : List Name} (hl : ns.length = 5) (hn : ns.Nodup) (hs : ∀ x ∈ ns, ∀ y ∈ ns, x ≠ y → s x ≠ s y)
    (hd : ∀ x ∈ ns, s x ∈ pyRange 1 6) : ns.map s ∈ perms5 := by
  refine mem_perms5 (by simp [hl]) ?_ ?_
  · refine (List.nodup_map_iff_inj_on hn).2 (fun x hx y hy h => ?_)
    by_contra hne
    exact hs x hx y hy hne h
  · intro v hv
    obtain ⟨x, hx, rfl⟩ := List.mem_map.1 hv
    exact hd x hx

/-- The solution. -/
def einSol : Subst := [
  ("owner_English", 3), ("owner_Swede", 5), ("owner_Dane", 2), ("owner_Norwegian", 1), ("owner_German", 4),
  ("color_red", 3), ("color_green", 4), ("color_white", 5), ("color_yellow", 1), ("color_blue", 2),
  ("drink_water", 1), ("drink_coffee", 4), ("drink_tea", 2), ("drink_milk", 3), ("drink_beer", 5),
  ("smoke_Pall_Mall", 3), ("smoke_Prince", 4), ("smoke_Dunhill", 1), ("smoke_Blend", 2), ("smoke_Blue_Master", 5),
  ("animal_cats", 1), ("animal_a_dog", 5), ("animal_birds", 3), ("animal_a_horse", 2), ("animal_a_zebra", 4),
  ("Blend_cats", 1), ("Dunhill_horse", -1), ("Norwegian_blue", -1), ("water_Blend", -1)]

theorem ein_values {s : Name → Int} (hC : EinC s) (hd : ∀ x ∈ einNames, s x ∈ einDom x) : ∀ p ∈ einSol, s p.1 = p.2 := by
  have hdom : ∀ x ∈ einNames, x ∉ pmNames → s x ∈ pyRange 1 6 := by
    intro x hx hp
    have := hd x hx
    simpa [einDom, hp] using this
  have hpm : ∀ x ∈ pmNames, s x = 1 ∨ s x = -1 := by
    intro x hx
    have := hd x (by simp [einNames, hx])
    simp [einDom, hx] at this
    exact this.symm
  have powner := names_perm (ns := ownerNames) rfl (by decide) hC.owner (fun x hx => hdom x (by revert x; decide +kernel) (by revert x; decide +kernel))
  have pcolor := names_perm (ns := colorNames) rfl (by decide) hC.color (fun x hx => hdom x (by revert x; decide +kernel) (by revert x; decide +kernel))
  have pdrink := names_perm (ns := drinkNames) rfl (by decide) hC.drink (fun x hx => hdom x (by revert x; decide +kernel) (by revert x; decide +kernel))
  have psmoke := names_perm (ns := smokeNames) rfl (by decide) hC.smoke (fun x hx => hdom x (by revert x; decide +kernel) (by revert x; decide +kernel))
  have panimal := names_perm (ns := animalNames) rfl (by decide) hC.animal (fun x hx => hdom x (by revert x; decide +kernel) (by revert x; decide +kernel))
  have k10 := hpm "Blend_cats" (by decide)
  have k11 := hpm "Dunhill_horse" (by decide)
  have k14 := hpm "Norwegian_blue" (by decide)
  have k15 := hpm "water_Blend" (by decide)
  rw [← hC.s10] at k10
  rw [← hC.s11] at k11
  rw [← hC.s14] at k14
  rw [← hC.s15] at k15
  obtain ⟨ho, hc, hdr, hsm, han⟩ := ein_search _ powner hC.s9 _ pcolor ⟨hC.s1, hC.s4, k14⟩ _ pdrink ⟨hC.s3, hC.s5, hC.s8⟩ _ psmoke
    ⟨hC.s7, hC.s12, hC.s13, k15⟩ _ panimal ⟨hC.s2, hC.s6, k10, k11⟩
  simp only [ownerNames, colorNames, drinkNames, smokeNames, animalNames, List.map_cons, List.map_nil, List.cons.injEq, and_true] at ho hc hdr hsm han
  have e10 := hC.s10
  have e11 := hC.s11
  have e14 := hC.s14
  have e15 := hC.s15
  rw [hsm.2.2.2.1, han.1] at e10
  rw [hsm.2.2.1, han.2.2.2.1] at e11
  rw [ho.2.2.2.1, hc.2.2.2.2] at e14
  rw [hdr.1, hsm.2.2.2.1] at e15
  have e10 := e10.symm
  have e11 := e11.symm
  have e14 := e14.symm
  have e15 := e15.symm
  norm_num at e10 e11 e14 e15
  obtain ⟨o1, o2, o3, o4, o5⟩ := ho
  obtain ⟨c1, c2, c3, c4, c5⟩ := hc
  obtain ⟨d1, d2, d3, d4, d5⟩ := hdr
  obtain ⟨s1, s2, s3, s4, s5⟩ := hsm
  obtain ⟨a1, a2, a3, a4, a5⟩ := han
  simp only [einSol, List.forall_mem_cons, o1, o2, o3, o4, o5, c1, c2, c3, c4, c5, d1, d2, d3, d4, d5, s1, s2, s3, s4, s5, a1, a2, a3, a4, a5, e10, e11,
    e14, e15]
  simp

/-! ## Decoding -/

/-- The answer: the German has the zebra. -/
def einStreet : Street := [
  (1, [("owner", "Norwegian"), ("color", "yellow"), ("drink", "water"), ("smoke", "Dunhill"), ("animal", "cats")]),
  (2, [("owner", "Dane"), ("color", "blue"), ("drink", "tea"), ("smoke", "Blend"), ("animal", "a horse")]),
  (3, [("owner", "English"), ("color", "red"), ("drink", "milk"), ("smoke", "Pall Mall"), ("animal", "birds")]),
  (4, [("owner", "German"), ("color", "green"), ("drink", "coffee"), ("smoke", "Prince"), ("animal", "a zebra")]),
  (5, [("owner", "Swede"), ("color", "white"), ("drink", "beer"), ("smoke", "Blue Master"), ("animal", "a dog")])]

theorem einSol_keys : einSol.keys = einNames := by rfl

theorem einSol_exact : Exact (einVars einNames) einSol := by
  refine ⟨by rw [einSol_keys]; exact einNames_nodup, by intro x; rw [einSol_keys, einVars_keys], ?_⟩
  intro p hp
  have : ∀ x ∈ einNames, ∃ v ∈ einDom x, Dict.get? einSol x = some v := by decide +kernel
  obtain ⟨x, hx, rfl⟩ := List.mem_map.1 hp
  exact this x hx

theorem einSol_C : EinC (val einSol) := by
  constructor <;> decide +kernel

theorem einDecode_sol : einDecode einResult einSol = .ok einStreet := by rfl

theorem einDecode_same (vs : List (String × List (String × Expr))) {τ τ' : Subst} (h : SameDict τ τ') : einDecode vs τ = einDecode vs τ' := by
  have h1 : ∀ (attr : String) (d : List (String × Expr)) (z : Street), einFill τ attr d z = einFill τ' attr d z := by
    intro attr d
    induction d with
    | nil => intro z; rfl
    | cons p d ih =>
      intro z
      obtain ⟨v, x⟩ := p
      rw [einFill, einFill, h.at]
      congr 1; funext i; congr 1; funext house
      exact ih _
  unfold einDecode
  generalize (pyRange 1 6).map (fun i => (i, ([] : List (String × String)))) = z
  induction vs generalizing z with
  | nil => rfl
  | cons p vs ih =>
    obtain ⟨a, d⟩ := p
    rw [einFillAll, einFillAll, h1]
    congr 1; funext z'
    exact ih z'

theorem ein_same {τ : Subst} (hτ : Exact (einVars einNames) τ) (hC : EinC (val τ)) : SameDict τ einSol := by
  have hv := ein_values hC (fun x hx => by
    obtain ⟨v, hv, hg⟩ := hτ.val hx
    simp only [id] at hg
    rw [val_eq hg]; exact hv)
  refine hτ.same einSol_exact (fun x hx => ?_)
  rw [einVars_keys] at hx
  obtain ⟨v, _, hg⟩ := hτ.val hx
  simp only [id] at hg
  obtain ⟨u, hu⟩ := Dict.get?_isSome_of_mem_keys (d := einSol) (k := x) (by rw [einSol_keys]; exact hx)
  have := hv _ (get?_mem hu)
  simp only at this
  rw [hg, hu, ← this, val_eq hg]

/-! ## The riddle has one solution -/

theorem einStreet_riddle : Riddle einStreet := by
  have has : ∀ {i : Int} {a v : String}, (∃ h ∈ einStreet, h.1 = i ∧ (a, v) ∈ h.2) → einStreet.Has i a v := id
  refine ⟨by decide, by decide, ?_, by decide +kernel, ?_, ?_, ?_, ?_, ?_, ?_, ?_, has (by decide), has (by decide), ?_, ?_, ?_, ?_, ?_, ?_⟩
  · have : ∀ p ∈ einAttrs, ∀ v ∈ p.2, ∃ h ∈ einStreet, (p.1, v) ∈ h.2 ∧ ∀ h' ∈ einStreet, (p.1, v) ∈ h'.2 → h'.1 = h.1 := by decide +kernel
    intro p hp v hv
    obtain ⟨h, h1, h2, h3⟩ := this p hp v hv
    refine ⟨h.1, ⟨h, h1, rfl, h2⟩, ?_⟩
    rintro j ⟨h', h4, rfl, h5⟩
    exact h3 h' h4 h5
  · exact ⟨3, has (by decide), has (by decide)⟩
  · exact ⟨5, has (by decide), has (by decide)⟩
  · exact ⟨2, has (by decide), has (by decide)⟩
  · exact ⟨4, has (by decide), has (by decide)⟩
  · exact ⟨4, has (by decide), has (by decide)⟩
  · exact ⟨3, has (by decide), has (by decide)⟩
  · exact ⟨1, has (by decide), has (by decide)⟩
  · exact ⟨2, 1, has (by decide), has (by decide), by decide⟩
  · exact ⟨1, 2, has (by decide), has (by decide), by decide⟩
  · exact ⟨5, has (by decide), has (by decide)⟩
  · exact ⟨4, has (by decide), has (by decide)⟩
  · exact ⟨1, 2, has (by decide), has (by decide), by decide⟩
  · exact ⟨1, 2, has (by decide), has (by decide), by decide⟩

theorem eq_of_keys {α β : Type} {l l' : List (α × β)} {ks : List α} (hn : ks.Nodup) (h : l.map (fun p => p.1) = ks)
    (h' : l'.map (fun p => p.1) = ks) (hm : ∀ p ∈ l', p ∈ l) : l = l' := by
  have hl : l.length = ks.length := by rw [← h]; simp
  have hl' : l'.length = ks.length := by rw [← h']; simp
  apply List.ext_getElem (by omega)
  intro i h1 h2
  obtain ⟨j, hj, he⟩ := List.getElem_of_mem (hm _ (List.getElem_mem h2))
  have e1 : ks[i]'(by omega) = l'[i].1 := by simp only [← h', List.getElem_map]
  have e2 : ks[j]'(by omega) = l[j].1 := by simp only [← h, List.getElem_map]
  have : j = i := (List.Nodup.getElem_inj_iff hn).1 (by rw [e1, e2, he])
  subst this
  exact he

/-- The values with their attributes. -/
def einPairs : List (String × String) := einAttrs.flatMap (fun p => p.2.map (fun v => (p.1, v)))

def pairName (q : String × String) : Name := mkname [q.1, q.2]

theorem pairNames : einPairs.map pairName = ownerNames ++ colorNames ++ drinkNames ++ smokeNames ++ animalNames := by rfl

theorem pairName_inj : ∀ q ∈ einPairs, ∀ q' ∈ einPairs, pairName q = pairName q' → q = q' := by decide +kernel

theorem riddle_unique {z : Street} (hz : Riddle z) : z = einStreet := by
  have hbij : ∀ q ∈ einPairs, ∃ i, z.Has i q.1 q.2 ∧ ∀ j, z.Has j q.1 q.2 → j = i := by
    intro q hq
    obtain ⟨p, hp, hq⟩ := List.mem_flatMap.1 hq
    obtain ⟨v, hv, rfl⟩ := List.mem_map.1 hq
    exact hz.bij p hp v hv
  -- the positions
  obtain ⟨t, ht⟩ : ∃ t : Name → Int, ∀ q ∈ einPairs, z.Has (t (pairName q)) q.1 q.2 ∧ ∀ j, z.Has j q.1 q.2 → j = t (pairName q) := by
    have : ∀ x : Name, ∃ i : Int, ∀ q ∈ einPairs, pairName q = x → z.Has i q.1 q.2 ∧ ∀ j, z.Has j q.1 q.2 → j = i := by
      intro x
      by_cases hx : ∃ q ∈ einPairs, pairName q = x
      · obtain ⟨q, hq, he⟩ := hx
        obtain ⟨i, hi⟩ := hbij q hq
        refine ⟨i, fun q' hq' he' => ?_⟩
        rw [pairName_inj q' hq' q hq (he'.trans he.symm)]
        exact hi
      · exact ⟨0, fun q hq he => absurd ⟨q, hq, he⟩ hx⟩
    choose t ht using this
    exact ⟨t, fun q hq => ht _ q hq rfl⟩
  have hpos : ∀ q ∈ einPairs, ∀ i, z.Has i q.1 q.2 → t (pairName q) = i := fun q hq i hi => ((ht q hq).2 i hi).symm
  have hdom : ∀ i a v, z.Has i a v → i ∈ pyRange 1 6 := by
    rintro i a v ⟨h, hh, rfl, _⟩
    have : h.1 ∈ z.map (fun h => h.1) := List.mem_map_of_mem hh
    rw [hz.houses] at this
    revert this
    generalize h.1 = n
    intro hn
    have key : ∀ n ∈ [1, 2, 3, 4, 5], n ∈ pyRange 1 6 := by decide
    exact key n hn
  have huniq : ∀ i a v v', z.Has i a v → z.Has i a v' → v = v' := by
    rintro i a v v' ⟨h, hh, rfl, hv⟩ ⟨h', hh', he, hv'⟩
    have hhe : h' = h := by
      have hnd : (z.map (fun h => h.1)).Nodup := by rw [hz.houses]; decide
      exact List.inj_on_of_nodup_map hnd hh' hh he
    subst hhe
    have hnd : (h'.2.map (fun p => p.1)).Nodup := by rw [hz.attrs h' hh']; decide
    have := List.inj_on_of_nodup_map hnd hv hv' rfl
    simpa using this
  -- different values of an attribute are in different houses
  have hdiff : ∀ a vs, (a, vs) ∈ einAttrs → ∀ x ∈ vs.map (fun v => mkname [a, v]), ∀ y ∈ vs.map (fun v => mkname [a, v]), x ≠ y → t x ≠ t y := by
    intro a vs ha x hx y hy hne he
    obtain ⟨v, hv, rfl⟩ := List.mem_map.1 hx
    obtain ⟨v', hv', rfl⟩ := List.mem_map.1 hy
    have hq : (a, v) ∈ einPairs := List.mem_flatMap.2 ⟨_, ha, List.mem_map_of_mem hv⟩
    have hq' : (a, v') ∈ einPairs := List.mem_flatMap.2 ⟨_, ha, List.mem_map_of_mem hv'⟩
    have e1 := (ht _ hq).1
    have e2 := (ht _ hq').1
    have : t (pairName (a, v)) = t (pairName (a, v')) := he
    rw [this] at e1
    have : v = v' := huniq _ _ _ _ e1 e2
    exact hne (by show mkname [a, v] = mkname [a, v']; rw [this])
  let s : Name → Int := fun x =>
    if x = "Blend_cats" then t "smoke_Blend" - t "animal_cats"
    else if x = "Dunhill_horse" then t "smoke_Dunhill" - t "animal_a_horse"
    else if x = "Norwegian_blue" then t "owner_Norwegian" - t "color_blue"
    else if x = "water_Blend" then t "drink_water" - t "smoke_Blend"
    else t x
  have hst : ∀ x, x ∉ pmNames → s x = t x := by
    intro x hx
    simp only [pmNames, List.mem_cons, List.not_mem_nil, or_false, not_or] at hx
    simp [s, hx]
  have same : ∀ a v a' v', (a, v) ∈ einPairs → (a', v') ∈ einPairs → (∃ i, z.Has i a v ∧ z.Has i a' v') → t (mkname [a, v]) = t (mkname [a', v']) := by
    rintro a v a' v' h h' ⟨i, h1, h2⟩
    exact (hpos _ h i h1).trans (hpos _ h' i h2).symm
  have next : ∀ a v a' v', (a, v) ∈ einPairs → (a', v') ∈ einPairs → (∃ i j, z.Has i a v ∧ z.Has j a' v' ∧ (j = i + 1 ∨ i = j + 1)) →
      t (mkname [a, v]) - t (mkname [a', v']) ∈ [-1, 1] := by
    rintro a v a' v' h h' ⟨i, j, h1, h2, h3⟩
    have e1 := hpos _ h i h1
    have e2 := hpos _ h' j h2
    simp only [pairName] at e1 e2
    rw [e1, e2]
    rcases h3 with rfl | rfl <;> simp <;> omega
  have hC : EinC s := by
    have lift : ∀ ns : List Name, (∀ x ∈ ns, x ∉ pmNames) → (∀ x ∈ ns, ∀ y ∈ ns, x ≠ y → t x ≠ t y) → ∀ x ∈ ns, ∀ y ∈ ns, x ≠ y → s x ≠ s y := by
      intro ns hp h x hx y hy hne
      rw [hst x (hp x hx), hst y (hp y hy)]
      exact h x hx y hy hne
    refine ⟨lift _ (by decide) (hdiff "owner" ["English", "Swede", "Dane", "Norwegian", "German"] (by decide)),
      lift _ (by decide) (hdiff "color" ["red", "green", "white", "yellow", "blue"] (by decide)),
      lift _ (by decide) (hdiff "drink" ["water", "coffee", "tea", "milk", "beer"] (by decide)),
      lift _ (by decide) (hdiff "smoke" ["Pall Mall", "Prince", "Dunhill", "Blend", "Blue Master"] (by decide)),
      lift _ (by decide) (hdiff "animal" ["cats", "a dog", "birds", "a horse", "a zebra"] (by decide)),
      ?_, ?_, ?_, ?_, ?_, ?_, ?_, ?_, ?_, ?_, ?_, ?_, ?_, ?_, ?_⟩
    · exact same "owner" "English" "color" "red" (by decide) (by decide) hz.s1
    · exact same "owner" "Swede" "animal" "a dog" (by decide) (by decide) hz.s2
    · exact same "owner" "Dane" "drink" "tea" (by decide) (by decide) hz.s3
    · obtain ⟨i, h1, h2⟩ := hz.s4
      have e1 := hpos ("color", "green") (by decide) i h1
      have e2 := hpos ("color", "white") (by decide) (i + 1) h2
      show t (pairName ("color", "green")) = t (pairName ("color", "white")) - 1
      omega
    · exact same "color" "green" "drink" "coffee" (by decide) (by decide) hz.s5
    · exact same "smoke" "Pall Mall" "animal" "birds" (by decide) (by decide) hz.s6
    · exact same "color" "yellow" "smoke" "Dunhill" (by decide) (by decide) hz.s7
    · exact hpos ("drink", "milk") (by decide) 3 hz.s8
    · exact hpos ("owner", "Norwegian") (by decide) 1 hz.s9
    · rfl
    · rfl
    · exact same "smoke" "Blue Master" "drink" "beer" (by decide) (by decide) hz.s12
    · exact same "owner" "German" "smoke" "Prince" (by decide) (by decide) hz.s13
    · rfl
    · rfl
  have hval := ein_values hC (by
    intro x hx
    rw [show einNames = einPairs.map pairName ++ pmNames from rfl] at hx
    rcases List.mem_append.1 hx with hx | hx
    · obtain ⟨q, hq, rfl⟩ := List.mem_map.1 hx
      have hp : pairName q ∉ pmNames := by revert q; decide +kernel
      rw [hst _ hp, einDom, if_neg hp]
      exact hdom _ _ _ (ht q hq).1
    · rw [einDom, if_pos hx]
      simp only [pmNames, List.mem_cons, List.not_mem_nil, or_false] at hx
      rcases hx with rfl | rfl | rfl | rfl
      · exact next "smoke" "Blend" "animal" "cats" (by decide) (by decide) hz.s10
      · exact next "smoke" "Dunhill" "animal" "a horse" (by decide) (by decide) hz.s11
      · exact next "owner" "Norwegian" "color" "blue" (by decide) (by decide) hz.s14
      · exact next "drink" "water" "smoke" "Blend" (by decide) (by decide) hz.s15)
  -- so every house is as it should be
  have hhas : ∀ h ∈ einStreet, ∀ q ∈ h.2, z.Has h.1 q.1 q.2 := by
    have key : ∀ h ∈ einStreet, ∀ q ∈ h.2, q ∈ einPairs ∧ (pairName q, h.1) ∈ einSol ∧ pairName q ∉ pmNames := by decide +kernel
    intro h hh q hq
    obtain ⟨k1, k2, k3⟩ := key h hh q hq
    have e1 := hval _ k2
    simp only at e1
    rw [hst _ k3] at e1
    have := (ht q k1).1
    rwa [e1] at this
  have hkeys : ∀ h ∈ einStreet, h.2.map (fun p => p.1) = einAttrs.map (fun p => p.1) := by decide
  refine eq_of_keys (ks := [1, 2, 3, 4, 5]) (by decide) hz.houses (by decide) (fun h hh => ?_)
  have hin : h.1 ∈ z.map (fun h => h.1) := by rw [hz.houses]; revert h; decide
  obtain ⟨h', hh', he⟩ := List.mem_map.1 hin
  have : h'.2 = h.2 := by
    refine eq_of_keys (ks := einAttrs.map (fun p => p.1)) (by decide) (hz.attrs h' hh') (hkeys h hh) (fun q hq => ?_)
    obtain ⟨h'', hh'', he'', hq''⟩ := hhas h hh q hq
    have hnd : (z.map (fun h => h.1)).Nodup := by rw [hz.houses]; decide
    have : h'' = h' := List.inj_on_of_nodup_map hnd hh'' hh' (he''.trans he.symm)
    subst this
    exact hq''
  have : h' = h := Prod.ext he this
  subst this
  exact hh'

/-! ## C43 -/

/-- C43: whatever the settings of the solver (policy, shuffling, compilation), construction succeeds, and the iteration hands out exactly
the arrangements with the fifteen statements, each once. -/
theorem C43_riddle (h : Heap) (a : SolveArgs) (hs : ∀ l, (a.shuffle l).Perm l) (ha : a.adds = []) :
    ∃ w vs, einBuild ⟨.empty, h⟩ = (w, .ok vs) ∧ PuzzleRun a (puzzleRun a w (einDecode vs)) Riddle := by
  obtain ⟨w, hw, hb⟩ := ein_built h
  refine ⟨w, _, hw, hb.puzzle hs ha (by decide) ?_ ?_ ?_ ?_⟩
  · intro τ hτ hC
    exact ⟨einStreet, by rw [einDecode_same _ (ein_same hτ hC)]; exact einDecode_sol, einStreet_riddle⟩
  · intro z hz
    rw [riddle_unique hz]
    exact ⟨einSol, einSol_exact, einSol_C, einDecode_sol⟩
  · intro τ τ' hτ hτ' hC hC' _ x
    rw [ein_same hτ hC x, ein_same hτ' hC' x]
  · intro τ τ' h
    exact einDecode_same _ h

theorem eq_single {α : Type} {z : α} {L : List α} (hne : L ≠ []) (h : ∀ x ∈ L, x = z) (hnd : L.Nodup) : L = [z] := by
  match L, hne, h, hnd with
  | [x], _, h, _ => rw [h x (by simp)]
  | x :: y :: L, _, h, hnd =>
    rw [h x (by simp), h y (by simp)] at hnd
    simp at hnd

/-- … that is, without a timeout, the one solution: the German has the zebra. A limit makes no difference. -/
theorem C43_answer (h : Heap) (a : SolveArgs) (hs : ∀ l, (a.shuffle l).Perm l) (ha : a.adds = []) (ht : a.solver.timeout = none) :
    ∃ w vs, einBuild ⟨.empty, h⟩ = (w, .ok vs) ∧ ∃ N, ∀ n ≥ N, (puzzleRun a w (einDecode vs) n).1 = .ok [einStreet] ∧
      (puzzleRun a w (einDecode vs) n).2.phase = .finished := by
  obtain ⟨w, vs, hw, hp⟩ := C43_riddle h a hs ha
  refine ⟨w, vs, hw, ?_⟩
  obtain ⟨N, hN⟩ := hp.complete
  refine ⟨N, fun n hn => ?_⟩
  obtain ⟨L, h1, h2, h3⟩ := hN n hn
  have hall : ∀ z ∈ L, z = einStreet := by
    obtain ⟨L', h1', h4⟩ := hp.sound n
    rw [h1] at h1'
    cases h1'
    exact fun z hz => riddle_unique (h4 z hz)
  have hnd := hp.once n L h1
  have hne : L ≠ [] := by
    rcases h3 with ⟨_, h3⟩ | ⟨_, l, _, h3⟩ | ⟨_, h3⟩
    · exact List.ne_nil_of_mem ((h3 _).2 einStreet_riddle)
    · intro h0; rw [h0] at h3; simp at h3; omega
    · rw [ht] at h3; simp at h3
  exact ⟨by rw [h1, eq_single hne hall hnd], h2⟩

end Satisfy.Props
