import Verif.Lemmas.CryptText
import Verif.Lemmas.Source
/-! What the tokens of a text must look like if it can be parsed. -/

namespace Satisfy

/-- What the last token was: the start or an opening bracket, an operator, or the end of an operand. -/
inductive LastTok where | opened | operator | operand
  deriving DecidableEq

/-- Reading a token: depth of the brackets, last token. -/
def tokStep (s : Nat × LastTok) : Tok → Option (Nat × LastTok)
  | .lpar => some (s.1 + 1, .opened)
  | .rpar => if s.1 = 0 ∨ s.2 = .operator then none else some (s.1 - 1, .operand)
  | .op o => if s.2 = .operand ∨ o = .minus ∨ o = .not then some (s.1, .operator) else none
  | .num _ | .name _ | .rbrk => some (s.1, .operand)
  | _ => some (s.1, .opened)

def tokScan : List Tok → Nat × LastTok → Option (Nat × LastTok)
  | [], s => some s
  | t :: ts, s => (tokStep s t).bind (tokScan ts)

theorem tokScan_append (a b : List Tok) (s : Nat × LastTok) : tokScan (a ++ b) s = (tokScan a s).bind (tokScan b) := by
  induction a generalizing s with
  | nil => rfl
  | cons t a ih =>
    simp only [List.cons_append, tokScan]
    cases tokStep s t with
    | none => rfl
    | some s' => simp [ih]

/-- The tokens are an operand. -/
def Operand (pre : List Tok) : Prop := ∀ d l, tokScan pre (d, l) = some (d, .operand)

/-- The tokens can follow an operand. -/
def Tail (pre : List Tok) : Prop := ∀ d, tokScan pre (d, .operand) = some (d, .operand)

theorem Operand.append {a b : List Tok} (h : Operand a) (h' : Tail b) : Operand (a ++ b) := by
  intro d l; rw [tokScan_append, h d l]; exact h' d

theorem Tail.op {a b : List Tok} {o : OpTok} (h : Operand a) (h' : Tail b) : Tail (.op o :: (a ++ b)) := by
  intro d
  simp only [tokScan, tokStep, true_or, if_true, Option.bind_some]
  rw [tokScan_append, h d _]; exact h' d

theorem Operand.neg {a : List Tok} {o : OpTok} (ho : o = .minus ∨ o = .not) (h : Operand a) : Operand (.op o :: a) := by
  intro d l
  simp only [tokScan, tokStep, if_pos (Or.inr ho : l = .operand ∨ _), Option.bind_some]
  exact h d _

theorem Operand.paren {a : List Tok} (h : Operand a) : Operand (.lpar :: (a ++ [.rpar])) := by
  intro d l
  simp only [tokScan, tokStep, Option.bind_some]
  rw [tokScan_append, h]
  simp [tokScan, tokStep]

/-- What the parser takes is an operand. -/
theorem parse_sound (f : Nat) :
    (∀ lvl toks a r, pE f lvl toks = some (a, r) → ∃ pre, toks = pre ++ r ∧ Operand pre) ∧
    (∀ lvl a toks b r, pLoop f lvl a toks = some (b, r) → ∃ pre, toks = pre ++ r ∧ Tail pre) ∧
    (∀ acc a toks b r, pChain f acc a toks = some (b, r) → ∃ pre, toks = pre ++ r ∧ Tail pre) ∧
    (∀ toks as r, pList f toks = some (as, r) → ∃ pre, toks = pre ++ r ∧ Operand pre) := by
  have tnil : Tail [] := fun d => rfl
  have onum : ∀ n, Operand [.num n] := fun n d l => rfl
  have oname : ∀ n, Operand [.name n] := fun n d l => rfl
  induction f with
  | zero => refine ⟨?_, ?_, ?_, ?_⟩ <;> intros <;> simp_all [pE, pLoop, pChain, pList]
  | succ f ih =>
    obtain ⟨ihE, ihL, ihC, ihS⟩ := ih
    refine ⟨?_, ?_, ?_, ?_⟩
    · intro lvl toks a r h
      unfold pE at h
      split at h
      · -- not
        split at h
        · split at h
          · rename_i he
            cases h
            obtain ⟨pre, rfl, hp⟩ := ihE _ _ _ _ he
            exact ⟨_ :: pre, rfl, hp.neg (.inr rfl)⟩
          · cases h
        · exact ihE _ _ _ _ h
      · split at h
        · rename_i he
          obtain ⟨pre, rfl, hp⟩ := ihE _ _ _ _ he
          obtain ⟨post, rfl, hq⟩ := ihC _ _ _ _ _ h
          exact ⟨pre ++ post, by simp, hp.append hq⟩
        · cases h
      · split at h
        · split at h
          · rename_i he
            cases h
            obtain ⟨pre, rfl, hp⟩ := ihE _ _ _ _ he
            exact ⟨_ :: pre, rfl, hp.neg (.inl rfl)⟩
          · cases h
        · exact ihE _ _ _ _ h
      · split at h
        · rename_i he
          obtain ⟨pre, rfl, hp⟩ := ihE _ _ _ _ he
          split at h
          · rename_i he'
            cases h
            obtain ⟨post, rfl, hq⟩ := ihE _ _ _ _ he'
            refine ⟨pre ++ (.op .dstar :: (post ++ [])), by simp, hp.append (.op hq tnil)⟩
          · cases h
        · exact ihE _ _ _ _ h
      · split at h
        · cases h; exact ⟨[_], rfl, onum _⟩
        · split at h
          · rename_i he
            cases h
            obtain ⟨pre, rfl, hp⟩ := ihE _ _ _ _ he
            exact ⟨.lpar :: (pre ++ [.rpar]), by simp, hp.paren⟩
          · cases h
        · split at h
          · rename_i he
            cases h
            obtain ⟨pre, rfl, hp⟩ := ihS _ _ _ he
            refine ⟨[.name _, .lpar, .lbrk] ++ pre ++ [.rbrk, .rpar], (by simp; rfl), fun d l => ?_⟩
            simp only [List.cons_append, List.nil_append, tokScan, tokStep, Option.bind_some]
            rw [tokScan_append, hp]
            simp [tokScan, tokStep]
          · cases h
        · split at h
          · rename_i he
            cases h
            obtain ⟨pre, rfl, hp⟩ := ihE _ _ _ _ he
            refine ⟨.name _ :: (.lpar :: (pre ++ [.rpar])), (by simp; rfl), fun d l => ?_⟩
            rw [tokScan]
            exact hp.paren _ _
          · cases h
        · split at h
          · cases h; exact ⟨[_], rfl, oname _⟩
          · split at h
            · cases h; exact ⟨[_], rfl, oname _⟩
            · split at h
              · cases h
              · cases h; exact ⟨[_], rfl, oname _⟩
        · cases h
      · split at h
        · rename_i he
          obtain ⟨pre, rfl, hp⟩ := ihE _ _ _ _ he
          obtain ⟨post, rfl, hq⟩ := ihL _ _ _ _ _ h
          exact ⟨pre ++ post, by simp, hp.append hq⟩
        · cases h
    · intro lvl a toks b r h
      unfold pLoop at h
      split at h
      · cases ‹_ = _›
      · obtain rfl := Nat.succ.inj ‹f + 1 = Nat.succ _›
        split at h
        · split at h
          · rename_i he
            obtain ⟨pre, rfl, hp⟩ := ihE _ _ _ _ he
            obtain ⟨post, rfl, hq⟩ := ihL _ _ _ _ _ h
            exact ⟨.op _ :: (pre ++ post), (by simp; rfl), .op hp hq⟩
          · cases h
        · cases h; exact ⟨[], rfl, tnil⟩
      · cases h; exact ⟨[], rfl, tnil⟩
    · intro acc a toks b r h
      unfold pChain at h
      split at h
      · cases ‹_ = _›
      · obtain rfl := Nat.succ.inj ‹f + 1 = Nat.succ _›
        split at h
        · split at h
          · rename_i he
            obtain ⟨pre, rfl, hp⟩ := ihE _ _ _ _ he
            obtain ⟨post, rfl, hq⟩ := ihC _ _ _ _ _ h
            exact ⟨.op _ :: (pre ++ post), (by simp; rfl), .op hp hq⟩
          · cases h
        · cases h; exact ⟨[], rfl, tnil⟩
      · cases h; exact ⟨[], rfl, tnil⟩
    · intro toks as r h
      unfold pList at h
      split at h
      · rename_i he
        obtain ⟨pre, rfl, hp⟩ := ihE _ _ _ _ he
        split at h
        · rename_i he'
          cases h
          obtain ⟨post, rfl, hq⟩ := ihS _ _ _ he'
          refine ⟨pre ++ .comma :: post, by simp, fun d l => ?_⟩
          rw [tokScan_append, hp]
          exact hq _ _
        · cases h
      · rename_i he
        cases h
        exact ihE _ _ _ _ he
      · cases h

theorem parseBody_sound {toks : List Tok} {a : Ast} (h : parseBody toks = some a) : Operand toks := by
  unfold parseBody at h
  split at h
  · rename_i he
    obtain ⟨pre, h1, h2⟩ := (parse_sound _).1 _ _ _ _ he
    rw [h1, List.append_nil]; exact h2
  · cases h

end Satisfy
