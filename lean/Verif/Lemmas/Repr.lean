import Verif.Repr
import Verif.Lemmas.Listing
import Verif.Lemmas.Vars

/-!
# Reading a `repr`

Every `repr` is the name of a class, an opening parenthesis, a body and a closing parenthesis; it ends where it ends, so texts can be compared from the
left to the right.
-/

namespace Satisfy

/-- A name without a quote or a backslash. `repr` encloses it in single quotes and changes only newlines. -/
def Name.plain (x : Name) : Prop := '\'' ∉ x.toList ∧ '\\' ∉ x.toList

/-- The same expression, except that parameters are told apart by their names only. -/
inductive LooksLike : Expr → Expr → Prop
  | const (v : Int) : LooksLike (.const v) (.const v)
  | var (x : Name) : LooksLike (.var x) (.var x)
  | param (i j : Nat) (n : Name) : LooksLike (.param i n) (.param j n)
  | un {op : UOp} {e e' : Expr} : LooksLike e e' → LooksLike (.un op e) (.un op e')
  | bin {op : BOp} {l r l' r' : Expr} : LooksLike l l' → LooksLike r r' → LooksLike (.bin op l r) (.bin op l' r')
  | acc {k : AccKind} {c : Int} {es es' : List Expr} : es.length = es'.length → (∀ p ∈ es.zip es', LooksLike p.1 p.2) → LooksLike (.acc k c es) (.acc k c es')

mutual
/-- The names in an expression are plain. -/
def Expr.plain : Expr → Prop
  | .const _ => True
  | .var x => x.plain
  | .param _ n => n.plain
  | .un _ e => e.plain
  | .bin _ l r => l.plain ∧ r.plain
  | .acc _ _ es => Expr.plains es
def Expr.plains : List Expr → Prop
  | [] => True
  | e :: es => e.plain ∧ Expr.plains es
end

theorem plains_iff (es : List Expr) : Expr.plains es ↔ ∀ e ∈ es, e.plain := by
  induction es with
  | nil => simp [Expr.plains]
  | cons e es ih => simp [Expr.plains, ih]

theorem reprTexts_eq (es : List Expr) : Expr.reprTexts es = es.map Expr.reprText := by
  induction es with
  | nil => rfl
  | cons e es ih => simp [Expr.reprTexts, ih]

/-! ### class names -/

inductive Cls where
  | const | var | param | un (op : UOp) | bin (op : BOp) | acc (k : AccKind)

def Cls.name : Cls → List Char
  | .const => "Const".toList
  | .var => "Variable".toList
  | .param => "Parameter".toList
  | .un op => op.className
  | .bin op => op.className
  | .acc k => k.className

theorem Cls.name_paren (c : Cls) : '(' ∉ c.name := by
  cases c with
  | un op => cases op <;> decide
  | bin op => cases op <;> decide
  | acc k => cases k <;> decide
  | _ => decide

/-- A number for every class, that can be read off its name. -/
def Cls.code : List Char → Nat
  | 'C' :: _ => 0
  | 'V' :: _ => 1
  | 'P' :: 'a' :: _ => 2
  | 'N' :: 'e' :: 'g' :: _ => 3
  | 'A' :: 'b' :: _ => 4
  | 'N' :: 'o' :: _ => 5
  | 'A' :: 'd' :: _ => 6
  | 'M' :: 'u' :: _ => 7
  | 'S' :: 'u' :: 'b' :: _ => 8
  | 'D' :: _ => 9
  | 'M' :: 'o' :: _ => 10
  | 'P' :: 'o' :: _ => 11
  | 'E' :: _ => 12
  | 'N' :: 'e' :: _ => 13
  | 'L' :: 't' :: _ => 14
  | 'L' :: 'e' :: _ => 15
  | 'G' :: 't' :: _ => 16
  | 'G' :: 'e' :: _ => 17
  | 'A' :: 'n' :: _ => 18
  | 'O' :: _ => 19
  | 'S' :: 'u' :: 'm' :: _ => 20
  | 'P' :: 'r' :: _ => 21
  | _ => 22

def Cls.ofCode : Nat → Option Cls
  | 0 => some .const | 1 => some .var | 2 => some .param | 3 => some (.un .neg) | 4 => some (.un .abs) | 5 => some (.un .not)
  | 6 => some (.bin .add) | 7 => some (.bin .mul) | 8 => some (.bin .sub) | 9 => some (.bin .div) | 10 => some (.bin .mod) | 11 => some (.bin .pow)
  | 12 => some (.bin .eq) | 13 => some (.bin .ne) | 14 => some (.bin .lt) | 15 => some (.bin .le) | 16 => some (.bin .gt) | 17 => some (.bin .ge)
  | 18 => some (.bin .and) | 19 => some (.bin .or) | 20 => some (.acc .sum) | 21 => some (.acc .prod)
  | _ => none

theorem Cls.decode (c : Cls) : Cls.ofCode (Cls.code c.name) = some c := by
  cases c with
  | un op => cases op <;> rfl
  | bin op => cases op <;> rfl
  | acc k => cases k <;> rfl
  | _ => rfl

theorem Cls.name_inj {c d : Cls} (h : c.name = d.name) : c = d := by
  have := Cls.decode c
  rw [h, Cls.decode d] at this
  injection this with this
  exact this.symm

/-! ### numbers and names -/

theorem intText_chars (n : Int) : ')' ∉ intText n := by
  have hn : ∀ n : Nat, ')' ∉ natStr n := by
    have go : ∀ f n, ')' ∉ natStrGo f n := by
      intro f
      induction f with
      | zero => intro n; simp [natStrGo]
      | succ f ih =>
        intro n
        have hd : ∀ d < 10, ')' ≠ digitChar d := by decide
        rw [natStrGo]
        split
        · rename_i h; simp [hd n h]
        · simp [hd (n % 10) (Nat.mod_lt _ (by omega)), ih]
    exact fun n => go _ n
  unfold intText
  split
  · simp only [List.mem_cons, not_or]; exact ⟨by decide, hn _⟩
  · exact hn _

theorem intText_inj {a b : Int} (h : intText a = intText b) : a = b := by
  have := ints_inj (l := [a]) (l' := [b]) (by simpa [joinChars] using h)
  simpa using this

theorem escape_inj : ∀ {s t : List Char}, '\\' ∉ s → '\\' ∉ t →
    s.flatMap (fun c => if c = '\n' then ['\\', 'n'] else [c]) = t.flatMap (fun c => if c = '\n' then ['\\', 'n'] else [c]) → s = t
  | [], [], _, _, _ => rfl
  | [], c :: t, _, _, h => by
    rw [List.flatMap_cons] at h
    split at h <;> simp at h
  | c :: s, [], _, _, h => by
    rw [List.flatMap_cons] at h
    split at h <;> simp at h
  | c :: s, d :: t, hs, ht, h => by
    rw [List.flatMap_cons, List.flatMap_cons] at h
    simp only [List.mem_cons, not_or] at hs ht
    by_cases hc : c = '\n'
    · by_cases hd : d = '\n'
      · rw [if_pos hc, if_pos hd] at h
        rw [hc, hd, escape_inj hs.2 ht.2 (by simpa using h)]
      · rw [if_pos hc, if_neg hd] at h
        simp only [List.cons_append, List.cons.injEq] at h
        exact absurd h.1 ht.1
    · by_cases hd : d = '\n'
      · rw [if_neg hc, if_pos hd] at h
        simp only [List.cons_append, List.cons.injEq] at h
        exact absurd h.1.symm hs.1
      · rw [if_neg hc, if_neg hd] at h
        simp only [List.cons_append, List.nil_append, List.cons.injEq] at h
        rw [h.1, escape_inj hs.2 ht.2 h.2]

theorem escape_quote {s : List Char} (h : '\'' ∉ s) : '\'' ∉ s.flatMap (fun c => if c = '\n' then ['\\', 'n'] else [c]) := by
  rw [List.mem_flatMap]
  rintro ⟨c, hc, h'⟩
  split at h'
  · revert h'; decide
  · simp only [List.mem_singleton] at h'
    exact h (h' ▸ hc)

theorem reprName_split {x y : Name} {r r' : List Char} (hx : x.plain) (hy : y.plain) (h : reprName x ++ r = reprName y ++ r') : x = y ∧ r = r' := by
  simp only [reprName, List.cons_append, List.append_assoc, List.cons.injEq, true_and, List.nil_append] at h
  obtain ⟨h1, h2⟩ := split_first h (escape_quote hx.1) (escape_quote hy.1)
  exact ⟨String.toList_inj.1 (escape_inj hx.2 hy.2 h1), h2⟩

/-! ### expressions -/

def Expr.cls : Expr → Cls
  | .const _ => .const
  | .var _ => .var
  | .param _ _ => .param
  | .un op _ => .un op
  | .bin op _ _ => .bin op
  | .acc k _ _ => .acc k

def Expr.body : Expr → List Char
  | .const v => intText v
  | .var x => reprName x
  | .param _ n => reprName n
  | .un _ e => e.reprText
  | .bin _ l r => l.reprText ++ [',', ' '] ++ r.reprText
  | .acc _ c es => joinChars [',', ' '] (es.map Expr.reprText) ++ ", const=".toList ++ intText c

theorem callText_eq (cls inner : List Char) : callText cls inner = cls ++ '(' :: (inner ++ [')']) := by simp [callText]

theorem reprText_eq (e : Expr) : e.reprText = e.cls.name ++ '(' :: (e.body ++ [')']) := by
  match e with
  | .const v => rw [Expr.reprText, callText_eq]; rfl
  | .var x => rw [Expr.reprText, callText_eq]; rfl
  | .param i n => rw [Expr.reprText, callText_eq]; rfl
  | .un op e => rw [Expr.reprText, callText_eq]; rfl
  | .bin op l r => rw [Expr.reprText, callText_eq]; rfl
  | .acc k c es => rw [Expr.reprText, callText_eq, reprTexts_eq]; rfl

theorem Cls.name_head (c : Cls) : ∃ ch r, c.name = ch :: r ∧ ch ≠ ',' ∧ ch ≠ 'c' := by
  cases c with
  | un op => cases op <;> exact ⟨_, _, rfl, by decide, by decide⟩
  | bin op => cases op <;> exact ⟨_, _, rfl, by decide, by decide⟩
  | acc k => cases k <;> exact ⟨_, _, rfl, by decide, by decide⟩
  | _ => exact ⟨_, _, rfl, by decide, by decide⟩

theorem reprText_head (e : Expr) : ∃ ch r, e.reprText = ch :: r ∧ ch ≠ ',' ∧ ch ≠ 'c' := by
  obtain ⟨ch, r, h, h1, h2⟩ := e.cls.name_head
  exact ⟨ch, _, by rw [reprText_eq, h]; rfl, h1, h2⟩

/-- The elements after the first. -/
def reprItems (es : List Expr) : List Char := es.flatMap (fun e => [',', ' '] ++ e.reprText)

theorem join_items (e : Expr) (es : List Expr) : joinChars [',', ' '] ((e :: es).map Expr.reprText) = e.reprText ++ reprItems es := by
  induction es generalizing e with
  | nil => simp [joinChars, reprItems]
  | cons f es ih =>
    rw [List.map_cons, List.map_cons, joinChars, ← List.map_cons (f := Expr.reprText), ih f]
    · simp [reprItems]
    · simp

/-- `e` can be read off the beginning of a text. -/
def Reading (e : Expr) : Prop := ∀ (e' : Expr) (s s' : List Char), e.plain → e'.plain → e.reprText ++ s = e'.reprText ++ s' → LooksLike e e' ∧ s = s'

theorem items_split : ∀ {es es' : List Expr} {s s' : List Char}, (∀ e ∈ es, Reading e) → (∀ e ∈ es, e.plain) → (∀ e ∈ es', e.plain) →
    reprItems es ++ (", const=".toList ++ s) = reprItems es' ++ (", const=".toList ++ s') →
    es.length = es'.length ∧ (∀ p ∈ es.zip es', LooksLike p.1 p.2) ∧ s = s'
  | [], [], s, s', _, _, _, h => by
    refine ⟨rfl, by simp, ?_⟩
    simpa [reprItems] using h
  | [], e' :: es', s, s', _, _, _, h => by
    obtain ⟨ch, r, he, -, hc⟩ := reprText_head e'
    simp only [reprItems, List.flatMap_nil, List.nil_append, List.flatMap_cons, he, List.cons_append, List.append_assoc] at h
    change ',' :: ' ' :: 'c' :: _ = _ at h
    simp only [List.cons.injEq, true_and] at h
    exact absurd h.1.symm hc
  | e :: es, [], s, s', _, _, _, h => by
    obtain ⟨ch, r, he, -, hc⟩ := reprText_head e
    simp only [reprItems, List.flatMap_nil, List.nil_append, List.flatMap_cons, he, List.cons_append, List.append_assoc] at h
    change _ = ',' :: ' ' :: 'c' :: _ at h
    simp only [List.cons.injEq, true_and] at h
    exact absurd h.1 hc
  | e :: es, e' :: es', s, s', hr, hp, hp', h => by
    simp only [reprItems, List.flatMap_cons, List.cons_append, List.append_assoc, List.nil_append, List.cons.injEq, true_and] at h
    obtain ⟨h1, h2⟩ := hr e (by simp) e' _ _ (hp e (by simp)) (hp' e' (by simp)) h
    obtain ⟨g1, g2, g3⟩ := items_split (fun e he => hr e (by simp [he])) (fun e he => hp e (by simp [he])) (fun e he => hp' e (by simp [he])) h2
    refine ⟨by simp [g1], ?_, g3⟩
    rintro p hp
    rw [List.zip_cons_cons, List.mem_cons] at hp
    rcases hp with rfl | hp
    · exact h1
    · exact g2 p hp

theorem reading (e : Expr) : Reading e := by
  have start : ∀ {e e' : Expr} {s s' : List Char}, e.reprText ++ s = e'.reprText ++ s' →
      e.cls = e'.cls ∧ e.body ++ ')' :: s = e'.body ++ ')' :: s' := by
    intro e e' s s' h
    rw [reprText_eq, reprText_eq] at h
    simp only [List.append_assoc, List.cons_append, List.nil_append] at h
    obtain ⟨h1, h2⟩ := split_first h (Cls.name_paren _) (Cls.name_paren _)
    exact ⟨Cls.name_inj h1, h2⟩
  induction e using Expr.induct with
  | hc v =>
    intro e' s s' hp hp' h
    obtain ⟨h1, h2⟩ := start h
    cases e' <;> simp only [Expr.cls, reduceCtorEq] at h1
    obtain ⟨h3, h4⟩ := split_first h2 (intText_chars _) (intText_chars _)
    rw [intText_inj h3]
    exact ⟨.const _, h4⟩
  | hv x =>
    intro e' s s' hp hp' h
    obtain ⟨h1, h2⟩ := start h
    cases e' <;> simp only [Expr.cls, reduceCtorEq] at h1
    obtain ⟨rfl, h4⟩ := reprName_split hp hp' h2
    exact ⟨.var _, by simpa using h4⟩
  | hp i n =>
    intro e' s s' hp hp' h
    obtain ⟨h1, h2⟩ := start h
    cases e' <;> simp only [Expr.cls, reduceCtorEq] at h1
    obtain ⟨rfl, h4⟩ := reprName_split hp hp' h2
    exact ⟨.param _ _ _, by simpa using h4⟩
  | hu op e ih =>
    intro e' s s' hp hp' h
    obtain ⟨h1, h2⟩ := start h
    cases e' <;> simp only [Expr.cls, reduceCtorEq, Cls.un.injEq] at h1
    subst h1
    simp only [Expr.body, Expr.plain] at h2 hp hp'
    obtain ⟨h3, h4⟩ := ih _ _ _ hp hp' h2
    exact ⟨.un h3, by simpa using h4⟩
  | hb op l r ihl ihr =>
    intro e' s s' hp hp' h
    obtain ⟨h1, h2⟩ := start h
    cases e' <;> simp only [Expr.cls, reduceCtorEq, Cls.bin.injEq] at h1
    subst h1
    simp only [Expr.body, List.append_assoc] at h2
    obtain ⟨h3, h4⟩ := ihl _ _ _ hp.1 hp'.1 h2
    obtain ⟨h5, h6⟩ := ihr _ _ _ hp.2 hp'.2 (List.append_cancel_left h4)
    exact ⟨.bin h3 h5, by simpa using h6⟩
  | ha k c es ih =>
    intro e' s s' hp hp' h
    obtain ⟨h1, h2⟩ := start h
    cases e' <;> simp only [Expr.cls, reduceCtorEq, Cls.acc.injEq] at h1
    rename_i c' es'
    subst h1
    have hp := (plains_iff es).1 hp
    have hp' := (plains_iff es').1 hp'
    simp only [Expr.body, List.append_assoc] at h2
    have fin : es.length = es'.length → (∀ p ∈ es.zip es', LooksLike p.1 p.2) → intText c ++ ')' :: s = intText c' ++ ')' :: s' →
        LooksLike (.acc k c es) (.acc k c' es') ∧ s = s' := by
      intro g1 g2 g3
      obtain ⟨h3, h4⟩ := split_first g3 (intText_chars _) (intText_chars _)
      rw [intText_inj h3]
      exact ⟨.acc g1 g2, h4⟩
    match es, es', hp, hp', ih with
    | [], [], _, _, _ =>
      exact fin rfl (by simp) (List.append_cancel_left (as := ", const=".toList) (by simpa [joinChars] using h2))
    | [], f :: es', _, _, _ =>
      obtain ⟨ch, r, he, hc, -⟩ := reprText_head f
      rw [join_items, he] at h2
      change ',' :: _ = _ at h2
      simp only [List.cons_append, List.cons.injEq] at h2
      exact absurd h2.1.symm hc
    | e :: es, [], _, _, _ =>
      obtain ⟨ch, r, he, hc, -⟩ := reprText_head e
      rw [join_items, he] at h2
      change _ = ',' :: _ at h2
      simp only [List.cons_append, List.cons.injEq] at h2
      exact absurd h2.1 hc
    | e :: es, f :: es', hp, hp', ih =>
      rw [join_items, join_items] at h2
      simp only [List.append_assoc] at h2
      obtain ⟨h3, h4⟩ := ih e (by simp) f _ _ (hp e (by simp)) (hp' f (by simp)) h2
      obtain ⟨g1, g2, g3⟩ := items_split (fun e he => ih e (by simp [he])) (fun e he => hp e (by simp [he])) (fun e he => hp' e (by simp [he])) h4
      refine fin (by simp [g1]) ?_ g3
      rintro p hp
      rw [List.zip_cons_cons, List.mem_cons] at hp
      rcases hp with rfl | hp
      · exact h3
      · exact g2 p hp

theorem reprText_alike {e e' : Expr} (h : LooksLike e e') : e.reprText = e'.reprText := by
  induction h with
  | const v => rfl
  | var x => rfl
  | param i j n => rfl
  | un _ ih => simp [Expr.reprText, ih]
  | bin _ _ ihl ihr => simp [Expr.reprText, ihl, ihr]
  | @acc k c es es' hl _ ih =>
    have : es.map Expr.reprText = es'.map Expr.reprText := by
      clear * - hl ih
      induction es generalizing es' with
      | nil => cases es' with
        | nil => rfl
        | cons => simp at hl
      | cons e es ihs => cases es' with
        | nil => simp at hl
        | cons f es' =>
          simp only [List.map_cons]
          rw [ih (e, f) (by simp), ihs (by simpa using hl) (fun p hp => ih p (by simp [hp]))]
    simp only [Expr.reprText, reprTexts_eq, this]

/-! ### sets of names -/

theorem names_read : ∀ {l l' : List Name}, (∀ x ∈ l, x.plain) → (∀ x ∈ l', x.plain) →
    joinChars [',', ' '] (l.map reprName) = joinChars [',', ' '] (l'.map reprName) → l = l'
  | [], [], _, _, _ => rfl
  | [], x :: l, _, _, h => by cases l <;> simp [joinChars, reprName] at h
  | x :: l, [], _, _, h => by cases l <;> simp [joinChars, reprName] at h
  | [x], [y], hx, hy, h => by
    rw [(reprName_split (r := []) (r' := []) (hx x (by simp)) (hy y (by simp)) (by simpa [joinChars] using h)).1]
  | [x], y :: z :: l, hx, hy, h => by
    have := (reprName_split (r := []) (hx x (by simp)) (hy y (by simp)) (by simpa [joinChars] using h)).2
    simp at this
  | x :: z :: l, [y], hx, hy, h => by
    have := (reprName_split (r' := []) (hx x (by simp)) (hy y (by simp)) (by simpa [joinChars] using h)).2
    simp at this
  | x :: x' :: l, y :: y' :: l', hx, hy, h => by
    have h1 : ∀ (x y : Name) l, joinChars [',', ' '] ((x :: y :: l).map reprName) = reprName x ++ (',' :: ' ' :: joinChars [',', ' '] ((y :: l).map reprName)) := by
      intro x y l; simp [joinChars]
    rw [h1, h1] at h
    obtain ⟨e1, e2⟩ := reprName_split (hx x (by simp)) (hy y (by simp)) h
    simp only [List.cons.injEq, true_and] at e2
    rw [e1, names_read (fun z hz => hx z (by simp only [List.mem_cons] at hz ⊢; tauto)) (fun z hz => hy z (by simp only [List.mem_cons] at hz ⊢; tauto)) e2]

theorem insertName_sorted (x : Name) : ∀ {l : List Name}, l.Pairwise (· ≤ ·) → (insertName x l).Pairwise (· ≤ ·)
  | [], _ => by simp [insertName]
  | y :: l, h => by
    rw [insertName]
    split
    · rename_i hxy
      rw [List.pairwise_cons]
      refine ⟨?_, h⟩
      intro z hz
      rcases List.mem_cons.1 hz with rfl | hz
      · exact hxy
      · exact String.le_trans hxy ((List.pairwise_cons.1 h).1 z hz)
    · rename_i hxy
      rw [List.pairwise_cons]
      refine ⟨?_, insertName_sorted x (List.pairwise_cons.1 h).2⟩
      intro z hz
      rcases (mem_insertName z x l).1 hz with rfl | hz
      · exact (String.le_total y z).resolve_right hxy
      · exact (List.pairwise_cons.1 h).1 z hz

theorem sortNames_sorted (l : List Name) : (sortNames l).Pairwise (· ≤ ·) := by
  induction l with
  | nil => simp [sortNames]
  | cons x l ih => exact insertName_sorted x ih

theorem insertName_perm (x : Name) (l : List Name) : (insertName x l).Perm (x :: l) := by
  induction l with
  | nil => simp [insertName]
  | cons y l ih =>
    rw [insertName]
    split
    · exact .refl _
    · exact (ih.cons y).trans (.swap x y l)

theorem sortNames_perm (l : List Name) : (sortNames l).Perm l := by
  induction l with
  | nil => simp [sortNames]
  | cons x l ih => exact (insertName_perm x _).trans (ih.cons x)

theorem sorted_same {l l' : List Name} (h : ∀ x, x ∈ l ↔ x ∈ l') : sortNames (dedup l) = sortNames (dedup l') := by
  refine List.Perm.eq_of_pairwise (fun a b _ _ h1 h2 => String.le_antisymm h1 h2) (sortNames_sorted _) (sortNames_sorted _) ?_
  refine (sortNames_perm _).trans (List.Perm.trans ?_ (sortNames_perm _).symm)
  rw [List.perm_ext_iff_of_nodup (nodup_dedup l) (nodup_dedup l')]
  simp [h]

end Satisfy
