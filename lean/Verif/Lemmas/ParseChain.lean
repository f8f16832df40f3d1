import Verif.Lemmas.Parse
/-! Sums and products without brackets. -/

namespace Satisfy

/-- A text `p1 o1 … pk` of a left associative level; `a` is the parse, to be continued. -/
structure Chain (m : Nat) (t : List Tok) (a : Ast) : Prop where
  pos : 1 ≤ t.length
  h2 : headNot t .not
  ex : ∃ k N, 1 ≤ N ∧ k ≤ t.length ∧ N + k ≤ 14 * t.length ∧
    ∀ r, stopB (m + 1) r = true → ∀ f, N ≤ f → pE (f + k) m (t ++ r) = pLoop f m a r

theorem Phrase.chain {t L a m} (h : Phrase t L a) (hm : m = 6 ∨ m = 7) (hL : m + 1 ≤ L) : Chain m t a where
  pos := h.pos
  h2 := h.h2 (by omega)
  ex := by
    have hp := h.pos
    refine ⟨1, 14 * t.length - 1, by omega, by omega, by omega, ?_⟩
    intro r hs f hf
    rw [pE_left (by omega)]
    simp [h.at_level' hL (by omega) hs f hf]

theorem Chain.op {m tl tr al ar R o} (hm : m = 6 ∨ m = 7) (ho : o.level = some m) (hl : Chain m tl al) (hr : Phrase tr R ar) (hR : m + 1 ≤ R) :
    Chain m (tl ++ .op o :: tr) (mkBin o al ar) ∧ Phrase (tl ++ .op o :: tr) m (mkBin o al ar) := by
  have h1 := hl.pos
  have h2 := hr.pos
  have hn : headNot (tl ++ .op o :: tr) .not := headNot_append hl.h2 h1
  obtain ⟨k, N, hN, hk, hb, hp⟩ := hl.ex
  have key : ∀ r, stopB (m + 1) r = true → ∀ f, max N (14 * tr.length) ≤ f →
      pE (f + (k + 1)) m (tl ++ .op o :: tr ++ r) = pLoop f m (mkBin o al ar) r := by
    intro r hs f hf
    have e1 := hp (.op o :: tr ++ r) (by simp [stopB, ho]) (f + 1) (by omega)
    have e2 := hr.at_level hR hs f (by omega)
    rw [List.append_assoc, List.cons_append, show f + (k + 1) = f + 1 + k by omega]
    rw [List.cons_append] at e1
    rw [e1]
    simp [pLoop, ho, e2]
  refine ⟨⟨by simp; omega, hn, k + 1, max N (14 * tr.length), by omega, by simp; omega, by simp; omega, key⟩, ?_⟩
  refine ⟨by omega, by simp; omega, ?_, fun _ => hn, fun h => by omega⟩
  intro r hs f hf
  simp only [List.length_append, List.length_cons] at hf
  have := key r (stopB_mono (by omega) hs) (f - (k + 1)) (by omega)
  rw [show f - (k + 1) + (k + 1) = f by omega] at this
  obtain ⟨g, hg⟩ : ∃ g, f - (k + 1) = g + 1 := ⟨f - (k + 1) - 1, by omega⟩
  rw [this, hg]
  exact pLoop_stop hs

end Satisfy
