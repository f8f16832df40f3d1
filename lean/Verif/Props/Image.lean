import Verif.Image
import Verif.Props.Nonogram
/-! C44: images and pixmaps. -/

namespace Satisfy.Props

/-! ## Lines -/

theorem pySplit_ne_nil (c : Char) (l : List Char) : pySplit c l ≠ [] := by
  cases l with
  | nil => simp [pySplit]
  | cons x l =>
    rw [pySplit]
    split
    · simp
    · split <;> simp

theorem pySplit_no_sep (c : Char) (l : List Char) : ∀ line ∈ pySplit c l, c ∉ line := by
  induction l with
  | nil => simp [pySplit]
  | cons x l ih =>
    rw [pySplit]
    split
    · intro line hl
      rcases List.mem_cons.1 hl with rfl | hl
      · simp
      · exact ih line hl
    · rename_i hx
      cases h : pySplit c l with
      | nil => exact absurd h (pySplit_ne_nil c l)
      | cons piece rest =>
        rw [h] at ih
        intro line hl
        rcases List.mem_cons.1 hl with rfl | hl
        · simp only [List.mem_cons, not_or]
          exact ⟨fun e => hx e.symm, ih piece (by simp)⟩
        · exact ih line (by simp [hl])

theorem pyJoin_cons (c : Char) (l : List Char) {ls : List (List Char)} (h : ls ≠ []) : pyJoin c (l :: ls) = l ++ c :: pyJoin c ls := by
  cases ls with
  | nil => exact absurd rfl h
  | cons => rfl

theorem pyJoin_split (c : Char) (l : List Char) : pyJoin c (pySplit c l) = l := by
  induction l with
  | nil => rfl
  | cons x l ih =>
    rw [pySplit]
    split
    · rename_i hx
      rw [pyJoin_cons _ _ (pySplit_ne_nil c l), ih, hx]; rfl
    · cases h : pySplit c l with
      | nil => exact absurd h (pySplit_ne_nil c l)
      | cons piece rest =>
        rw [h] at ih
        cases rest with
        | nil => simp only [pyJoin] at ih ⊢; rw [ih]
        | cons y ys => rw [pyJoin_cons _ _ (by simp)] at ih ⊢; rw [← ih]; rfl

theorem pySplit_append (c : Char) (line rest : List Char) (h : c ∉ line) : pySplit c (line ++ c :: rest) = line :: pySplit c rest := by
  induction line with
  | nil => simp [pySplit]
  | cons x line ih =>
    simp only [List.mem_cons, not_or] at h
    rw [List.cons_append, pySplit, if_neg (fun e => h.1 e.symm), ih h.2]

theorem pySplit_line (c : Char) (line : List Char) (h : c ∉ line) : pySplit c line = [line] := by
  induction line with
  | nil => rfl
  | cons x line ih =>
    simp only [List.mem_cons, not_or] at h
    rw [pySplit, if_neg (fun e => h.1 e.symm), ih h.2]

theorem pySplit_join (c : Char) (ls : List (List Char)) (hne : ls ≠ []) (h : ∀ l ∈ ls, c ∉ l) : pySplit c (pyJoin c ls) = ls := by
  induction ls with
  | nil => exact absurd rfl hne
  | cons l ls ih =>
    cases ls with
    | nil => exact pySplit_line c l (h l (by simp))
    | cons y ys =>
      rw [pyJoin_cons _ _ (by simp), pySplit_append _ _ _ (h l (by simp)), ih (by simp) (fun l hl => h l (by simp [hl]))]

theorem maxLength_le {α : Type} (ls : List (List α)) : ∀ l ∈ ls, l.length ≤ maxLength ls := by
  have gen : ∀ (ls : List (List α)) (m : Nat), m ≤ ls.foldl (fun m l => max m l.length) m ∧ ∀ l ∈ ls, l.length ≤ ls.foldl (fun m l => max m l.length) m := by
    intro ls
    induction ls with
    | nil => intro m; simp
    | cons x ls ih =>
      intro m
      obtain ⟨h1, h2⟩ := ih (max m x.length)
      rw [List.foldl_cons]
      refine ⟨by omega, fun l hl => ?_⟩
      rcases List.mem_cons.1 hl with rfl | hl
      · omega
      · exact h2 l hl
  exact (gen ls 0).2

theorem maxLength_rect {α : Type} {ls : List (List α)} {n : Nat} (h : ∀ l ∈ ls, l.length = n) (hne : ls ≠ []) : maxLength ls = n := by
  have gen : ∀ (ls : List (List α)), (∀ l ∈ ls, l.length = n) → ls.foldl (fun m l => max m l.length) n = n := by
    intro ls
    induction ls with
    | nil => intro _; rfl
    | cons x ls ih =>
      intro h
      rw [List.foldl_cons, h x (by simp), Nat.max_self]
      exact ih (fun l hl => h l (by simp [hl]))
  cases ls with
  | nil => exact absurd rfl hne
  | cons x ls =>
    unfold maxLength
    rw [List.foldl_cons, h x (by simp), Nat.zero_max]
    exact gen ls (fun l hl => h l (by simp [hl]))

/-! ## Rows -/

theorem imageRow_ok (zeroes : List Char) : ∀ (cells : List Char) (pre : List Int) (k : Nat), cells.length ≤ k →
    imageRow zeroes cells pre.length (pre ++ List.replicate k 0) =
      .ok (pre ++ cells.map (fun c => if c ∈ zeroes then 0 else 1) ++ List.replicate (k - cells.length) 0) := by
  intro cells
  induction cells with
  | nil => intro pre k _; simp [imageRow]
  | cons x cells ih =>
    intro pre k hk
    obtain ⟨m, rfl⟩ : ∃ m, k = m + 1 := ⟨k - 1, by simp at hk; omega⟩
    have hlen : ∀ v : Int, (pre ++ [v]).length = pre.length + 1 := by simp
    rw [imageRow]
    by_cases hx : x ∈ zeroes
    · have := ih (pre ++ [0]) m (by simpa using hk)
      rw [hlen] at this
      simp only [hx, not_true, if_false, if_true, List.map_cons]
      show imageRow zeroes cells (pre.length + 1) (pre ++ List.replicate (m + 1) 0) = _
      rw [List.replicate_succ, show pre ++ (0 : Int) :: List.replicate m 0 = (pre ++ [0]) ++ List.replicate m 0 by simp, this]
      simp
    · have := ih (pre ++ [1]) m (by simpa using hk)
      rw [hlen] at this
      simp only [hx, not_false_eq_true, if_false, if_true, List.map_cons]
      rw [listSet_nat (by simp)]
      show imageRow zeroes cells (pre.length + 1) ((pre ++ List.replicate (m + 1) 0).set pre.length 1) = _
      rw [List.replicate_succ, List.set_append_right _ _ (by simp)]
      simp only [Nat.sub_self, List.set_cons_zero]
      rw [show pre ++ (1 : Int) :: List.replicate m 0 = (pre ++ [1]) ++ List.replicate m 0 by simp, this]
      simp

theorem pixmapRow_ok (zero one : Char) : ∀ (cells : List Int) (pre : List Char) (k : Nat), cells.length ≤ k →
    pixmapRow one cells pre.length (pre ++ List.replicate k zero) =
      .ok (pre ++ cells.map (fun v => if v = 0 then zero else one) ++ List.replicate (k - cells.length) zero) := by
  intro cells
  induction cells with
  | nil => intro pre k _; simp [pixmapRow]
  | cons x cells ih =>
    intro pre k hk
    obtain ⟨m, rfl⟩ : ∃ m, k = m + 1 := ⟨k - 1, by simp at hk; omega⟩
    have hlen : ∀ v : Char, (pre ++ [v]).length = pre.length + 1 := by simp
    rw [pixmapRow]
    by_cases hx : x = 0
    · have := ih (pre ++ [zero]) m (by simpa using hk)
      rw [hlen] at this
      have ht : truthy x = false := by simp [truthy, hx]
      simp only [ht, hx, if_true, List.map_cons]
      show pixmapRow one cells (pre.length + 1) (pre ++ List.replicate (m + 1) zero) = _
      rw [List.replicate_succ, show pre ++ zero :: List.replicate m zero = (pre ++ [zero]) ++ List.replicate m zero by simp, this]
      simp
    · have := ih (pre ++ [one]) m (by simpa using hk)
      rw [hlen] at this
      have ht : truthy x = true := by simp [truthy, hx]
      simp only [ht, hx, if_false, if_true, List.map_cons]
      rw [listSet_nat (by simp)]
      show pixmapRow one cells (pre.length + 1) ((pre ++ List.replicate (m + 1) zero).set pre.length one) = _
      rw [List.replicate_succ, List.set_append_right _ _ (by simp)]
      simp only [Nat.sub_self, List.set_cons_zero]
      rw [show pre ++ one :: List.replicate m zero = (pre ++ [one]) ++ List.replicate m zero by simp, this]
      simp

/-- What `image_to_pixmap` computes: line by line, blank characters are 0, others 1, short lines filled up. It never raises. -/
theorem imageToPixmap_eq (s zeroes : List Char) : imageToPixmap s zeroes = .ok ((pySplit '\n' s).map (fun line =>
    line.map (fun c => if c ∈ zeroes then 0 else 1) ++ List.replicate (maxLength (pySplit '\n' s) - line.length) 0)) := by
  unfold imageToPixmap
  apply Res.each_ok
  intro line hl
  have := imageRow_ok zeroes line [] (maxLength (pySplit '\n' s)) (maxLength_le _ line hl)
  simpa using this

/-- What `pixmap_to_image` computes. It never raises. -/
theorem pixmapToImage_eq (p : List (List Int)) (zero one : Char) : pixmapToImage p zero one = .ok (pyJoin '\n' (p.map (fun row =>
    row.map (fun v => if v = 0 then zero else one) ++ List.replicate (maxLength p - row.length) zero))) := by
  have : Res.each (fun row => pixmapRow one row 0 (List.replicate (maxLength p) zero)) p = .ok (p.map (fun row =>
      row.map (fun v => if v = 0 then zero else one) ++ List.replicate (maxLength p - row.length) zero)) := by
    apply Res.each_ok
    intro row hr
    have := pixmapRow_ok zero one row [] (maxLength p) (maxLength_le _ row hr)
    simpa using this
  unfold pixmapToImage
  show (do let lines ← Res.each (fun row => pixmapRow one row 0 (List.replicate (maxLength p) zero)) p; return pyJoin '\n' lines) = _
  rw [this]; rfl

/-! ## C44 -/

/-- C44, the lines: whatever the pixmap (rows of different lengths, any cells), there are as many lines as rows, all as long as the
longest row. (A pixmap without rows gives the empty string.) -/
theorem C44_lines (p : List (List Int)) (zero one : Char) (h0 : zero ≠ '\n') (h1 : one ≠ '\n') :
    ∃ s, pixmapToImage p zero one = .ok s ∧ (p = [] → s = []) ∧
      (p ≠ [] → (pySplit '\n' s).length = p.length ∧ ∀ line ∈ pySplit '\n' s, line.length = maxLength p ∧ ∀ c ∈ line, c = zero ∨ c = one) := by
  refine ⟨_, pixmapToImage_eq p zero one, by rintro rfl; rfl, fun hne => ?_⟩
  have hchars : ∀ line ∈ p.map (fun row => row.map (fun v => if v = 0 then zero else one) ++ List.replicate (maxLength p - row.length) zero),
      line.length = maxLength p ∧ ∀ c ∈ line, c = zero ∨ c = one := by
    intro line hl
    obtain ⟨row, hr, rfl⟩ := List.mem_map.1 hl
    have := maxLength_le p row hr
    refine ⟨by simp; omega, fun c hc => ?_⟩
    rcases List.mem_append.1 hc with hc | hc
    · obtain ⟨v, _, rfl⟩ := List.mem_map.1 hc
      split <;> simp
    · exact .inl (List.eq_of_mem_replicate hc)
  rw [pySplit_join _ _ (by simpa using hne) (fun l hl hc => by
    rcases (hchars l hl).2 _ hc with h | h
    · exact h0 h.symm
    · exact h1 h.symm)]
  exact ⟨by simp, hchars⟩

/-- C44, pixmap to image and back: for all characters that stand for 0 and 1 and are read that way. -/
theorem C44_pixmap (p : List (List Int)) (n : Nat) (hp : Pixmap p n) (hne : p ≠ []) (zero one : Char) (zeroes : List Char)
    (h0 : zero ≠ '\n') (h1 : one ≠ '\n') (hz : zero ∈ zeroes) (ho : one ∉ zeroes) :
    ∃ s, pixmapToImage p zero one = .ok s ∧ imageToPixmap s zeroes = .ok p := by
  refine ⟨_, pixmapToImage_eq p zero one, ?_⟩
  have hm : maxLength p = n := maxLength_rect hp.rect hne
  have hlines : p.map (fun row => row.map (fun v => if v = 0 then zero else one) ++ List.replicate (maxLength p - row.length) zero) =
      p.map (fun row => row.map (fun v => if v = 0 then zero else one)) := by
    apply List.map_congr_left
    intro row hr
    simp [hm, hp.rect row hr]
  rw [hlines, imageToPixmap_eq, pySplit_join _ _ (by simpa using hne)]
  · congr 1
    have hm' : maxLength (p.map (fun row => row.map (fun v => if v = 0 then zero else one))) = n := by
      refine maxLength_rect (fun l hl => ?_) (by simpa using hne)
      obtain ⟨row, hr, rfl⟩ := List.mem_map.1 hl
      simpa using hp.rect row hr
    rw [hm', List.map_map]
    conv => rhs; rw [← List.map_id p]
    apply List.map_congr_left
    intro row hr
    simp only [Function.comp, List.length_map, hp.rect row hr, Nat.sub_self, List.replicate_zero, List.append_nil, List.map_map, id]
    conv => rhs; rw [← List.map_id row]
    apply List.map_congr_left
    intro v hv
    rcases hp.cells row hr v hv with rfl | rfl
    · simp [hz]
    · simp [ho]
  · intro l hl hc
    obtain ⟨row, _, rfl⟩ := List.mem_map.1 hl
    obtain ⟨v, _, hv⟩ := List.mem_map.1 hc
    split at hv
    · exact h0 hv
    · exact h1 hv

/-- C44 with the default characters. -/
theorem C44_default (p : List (List Int)) (n : Nat) (hp : Pixmap p n) (hne : p ≠ []) :
    ∃ s, pixmapToImage p = .ok s ∧ imageToPixmap s = .ok p :=
  C44_pixmap p n hp hne ' ' '#' [' ', '_'] (by decide) (by decide) (by decide) (by decide)

/-- The other way round: every image becomes a pixmap of zeros and ones with equally long rows (nothing raises), and an image whose lines
are equally long and made of the two characters comes back. -/
theorem C44_image (s : List Char) (zero one : Char) (zeroes : List Char) (hz : zero ∈ zeroes) (ho : one ∉ zeroes) :
    ∃ p, imageToPixmap s zeroes = .ok p ∧ p ≠ [] ∧ Pixmap p (maxLength (pySplit '\n' s)) ∧
      ((∀ line ∈ pySplit '\n' s, line.length = maxLength (pySplit '\n' s) ∧ ∀ c ∈ line, c = zero ∨ c = one) →
        pixmapToImage p zero one = .ok s) := by
  refine ⟨_, imageToPixmap_eq s zeroes, by simpa using pySplit_ne_nil _ _, ?_, fun h => ?_⟩
  · refine ⟨?_, ?_, fun h => absurd h (by simpa using pySplit_ne_nil _ _)⟩
    · intro row hr
      obtain ⟨line, hl, rfl⟩ := List.mem_map.1 hr
      have := maxLength_le _ line hl
      simp; omega
    · intro row hr v hv
      obtain ⟨line, hl, rfl⟩ := List.mem_map.1 hr
      rcases List.mem_append.1 hv with hv | hv
      · obtain ⟨c, _, rfl⟩ := List.mem_map.1 hv
        split <;> simp
      · exact .inl (List.eq_of_mem_replicate hv)
  · rw [pixmapToImage_eq]
    have hrows : (pySplit '\n' s).map (fun line =>
        line.map (fun c => if c ∈ zeroes then (0 : Int) else 1) ++ List.replicate (maxLength (pySplit '\n' s) - line.length) 0) =
        (pySplit '\n' s).map (fun line => line.map (fun c => if c ∈ zeroes then 0 else 1)) := by
      apply List.map_congr_left
      intro line hl
      simp [(h line hl).1]
    rw [hrows]
    have hm : maxLength ((pySplit '\n' s).map (fun line => line.map (fun c => if c ∈ zeroes then (0 : Int) else 1))) = maxLength (pySplit '\n' s) := by
      refine maxLength_rect (fun l hl => ?_) (by simpa using pySplit_ne_nil _ _)
      obtain ⟨line, hl', rfl⟩ := List.mem_map.1 hl
      simpa using (h line hl').1
    rw [hm, List.map_map]
    congr 1
    conv => rhs; rw [← pyJoin_split '\n' s, ← List.map_id (pySplit '\n' s)]
    congr 1
    apply List.map_congr_left
    intro line hl
    simp only [Function.comp, List.length_map, (h line hl).1, Nat.sub_self, List.replicate_zero, List.append_nil, List.map_map, id]
    conv => rhs; rw [← List.map_id line]
    apply List.map_congr_left
    intro c hc
    rcases (h line hl).2 c hc with rfl | rfl
    · simp [hz]
    · simp [ho]

/-- `image_to_nonogram` always works, and gives the runs of the pixmap. -/
theorem C44_nonogram (s zeroes : List Char) : ∃ p, imageToPixmap s zeroes = .ok p ∧
    imageToNonogram s zeroes = .ok (p.map runs, (List.range (maxLength (pySplit '\n' s))).map (fun c => runs (pixCol p c))) := by
  have hrect : Rect ((pySplit '\n' s).map (fun line =>
      line.map (fun c => if c ∈ zeroes then (0 : Int) else 1) ++ List.replicate (maxLength (pySplit '\n' s) - line.length) 0))
      (maxLength (pySplit '\n' s)) := by
    intro row hr
    obtain ⟨line, hl, rfl⟩ := List.mem_map.1 hr
    have := maxLength_le _ line hl
    simp; omega
  refine ⟨_, imageToPixmap_eq s zeroes, ?_⟩
  unfold imageToNonogram
  rw [imageToPixmap_eq]
  exact C39_runs _ _ hrect (fun h => absurd h (by simpa using pySplit_ne_nil _ _))

/-- A pixmap without rows does not come back. -/
theorem C44_no_rows : pixmapToImage [] = .ok [] ∧ imageToPixmap [] = .ok [[]] := by decide

/-- A pixmap with rows of different lengths does not come back. -/
theorem C44_ragged : pixmapToImage [[1], [0, 1]] = .ok "# \n #".toList ∧ imageToPixmap "# \n #".toList = .ok [[1, 0], [0, 1]] := by decide

example : Pixmap [[1, 0, 1], [1, 1, 0]] 3 ∧ pixmapToImage [[1, 0, 1], [1, 1, 0]] = .ok "# #\n## ".toList ∧
    imageToPixmap "# #\n## ".toList = .ok [[1, 0, 1], [1, 1, 0]] :=
  ⟨⟨by unfold Rect; decide, by decide, by decide⟩, by decide, by decide⟩

example : imageToNonogram "#_#\nxx".toList = .ok ([[1, 1], [2]], [[2], [1], [1]]) := by decide

end Satisfy.Props
