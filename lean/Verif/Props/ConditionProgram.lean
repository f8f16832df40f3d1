import Verif.Props.Condition
import Verif.Props.RelationProgram
/-!
# The cryptarithm program with several conditions: C78
-/

namespace Satisfy.Props
open Satisfy

/-- `satisfy cryptarithm SOURCE` for a combination of comparisons: the source, with `-s` the listing of the model, then the report about the digits for
which the combination holds. -/
theorem C78_program (m : Machine) (hs : ∀ l, (m.shuffle l).Perm l) (ho : ∀ l, (m.ord l).Perm l) {pre post : List Piece}
    {before after : List (List Char)} (hw : Written pre before) (hw' : Written post after) (hb : ∀ p ∈ pre ++ post, p.Belongs .cryptarithm)
    (hp : ∀ p ∈ pre ++ post, ∀ t ∈ p.texts, PlainArg t) (hm : ∀ p ∈ pre ++ post, ∃ v, Means m.outside p v) {source : List Char} (hplain : PlainArg source)
    (hlast : ∀ p, pre.getLast? = some p → ¬ p.Bare) {limit timeout : ArgVal} {shown : Bool}
    (hlimit : Asked m.outside (pre ++ post) .limit limit) (htimeout : Asked m.outside (pre ++ post) .timeout timeout)
    (hshown : Asked m.outside (pre ++ post) .showModel (.bool shown)) {f : CForm} (hsrc : CCond 4 source f) (hcl : f.Clean)
    (hne : ∃ w ∈ f.words, ∃ c ∈ w, ¬ IsDigit c) (hk : f.kind ≠ .number) :
    ∃ w letters avoid front, cryptBuild m.ord source avoid ⟨.empty, m.heap⟩ = (w, .ok letters) ∧ letters.Nodup ∧
      (∀ c, c ∈ letters ↔ ∃ w ∈ f.words, c ∈ w ∧ ¬ IsDigit c) ∧ ModelShown (fun o => ∃ d, o = .tuple d) shown w.model front ∧
      ∃ N, ∀ n ≥ N, ∃ lines, program m ("cryptarithm".toList :: before ++ source :: after) n = .text (source ++ "\n".toList ++ front ++ unlines lines) ∧
        Report m.fmt (SolvesFor f.words letters (fun d => f.Holds d)) (DigitLines letters source) limit timeout lines := by
  obtain ⟨kw, hcall, hkeys, hsource, hkw⟩ := C73_source (o := m.outside) hw hw' hb hp hm hplain hlast
  have arg : ∀ d ∈ Command.cryptarithm.parameters, d ≠ .source → ∀ v, Asked m.outside (pre ++ post) d v → kwarg kw d = v := fun d hd hne v hv =>
    asked_unique (hkw d _ (kwarg_mem (by rw [hkeys]; exact hd)) hne) hv
  have e1 : kwarg kw .source = .text source := by
    have h1 := kwarg_mem (kw := kw) (d := .source) (by rw [hkeys]; decide)
    have hnd : (kw.map Prod.fst).Nodup := by rw [hkeys]; decide
    exact congrArg Prod.snd (List.inj_on_of_nodup_map hnd h1 hsource rfl)
  have e2 := arg .limit (by decide) (by decide) _ hlimit
  have e3 := arg .timeout (by decide) (by decide) _ htimeout
  have e4 := arg .showModel (by decide) (by decide) _ hshown
  obtain ⟨w, letters, nz, h1, h2, h3, h3', hcap, hbu⟩ := cond_built m.heap m.ord ho hsrc (k := True) (fun _ => hcl) hk (decide (kwarg kw .avoidLeadingZeros = .bool true))
  obtain ⟨h4, N, hN⟩ := digit_demo m hs (source := source) (P := fun d => f.Holds d) h2 h3 h3' hcap (fun d d' hd => (holds_congr f hd).1)
    (by obtain ⟨w, hw, c, hc, hd⟩ := hne; exact ⟨c, (h3 c).2 ⟨w, hw, hc, hd⟩⟩) hbu limit timeout shown
  refine ⟨w, letters, _, _, h1, h2, h3, h4, N, fun n hn => ?_⟩
  obtain ⟨lines, h5, h6⟩ := hN n hn
  refine ⟨lines, ?_, h6⟩
  unfold program
  rw [show mainCall m.outside ("cryptarithm".toList :: before ++ source :: after) = .call .cryptarithm kw from hcall]
  simp only [e1, e2, e3, e4, cryptarithmDemo, h1, h5, printed, unlines]
  rfl

/-- … and the exception, if the combination is an int. -/
theorem C78_program_constant (m : Machine) (ho : ∀ l, (m.ord l).Perm l) {pre post : List Piece}
    {before after : List (List Char)} (hw : Written pre before) (hw' : Written post after) (hb : ∀ p ∈ pre ++ post, p.Belongs .cryptarithm)
    (hp : ∀ p ∈ pre ++ post, ∀ t ∈ p.texts, PlainArg t) (hm : ∀ p ∈ pre ++ post, ∃ v, Means m.outside p v) {source : List Char} (hplain : PlainArg source)
    (hlast : ∀ p, pre.getLast? = some p → ¬ p.Bare) {f : CForm} (hsrc : CCond 4 source f)
    (hk : f.kind = .number) (n : Nat) :
    program m ("cryptarithm".toList :: before ++ source :: after) n = .raised .typeError := by
  obtain ⟨kw, hcall, e1, _⟩ := source_call (m := m) hw hw' hb hp hm hplain hlast
  obtain ⟨w, h1⟩ := C78_type_error m.heap m.ord ho source f hsrc hk (decide (kwarg kw .avoidLeadingZeros = .bool true))
  unfold program
  rw [show mainCall m.outside ("cryptarithm".toList :: before ++ source :: after) = .call .cryptarithm kw from hcall]
  simp only [e1, cryptarithmDemo, h1]

/-- `satisfy cryptarithm '(A==1)|(A==2)'` -/
example : ∃ w letters avoid front, cryptBuild exMachine.ord "(A==1)|(A==2)".toList avoid ⟨.empty, exMachine.heap⟩ = (w, .ok letters) ∧ letters.Nodup ∧
      (∀ c, c ∈ letters ↔ ∃ w ∈ (CForm.or (isA '1') (isA '2')).words, c ∈ w ∧ ¬ IsDigit c) ∧
      ModelShown (fun o => ∃ d, o = .tuple d) false w.model front ∧
      ∃ N, ∀ n ≥ N, ∃ lines, program exMachine ["cryptarithm".toList, "(A==1)|(A==2)".toList] n =
          .text ("(A==1)|(A==2)".toList ++ "\n".toList ++ front ++ unlines lines) ∧
        Report exMachine.fmt (SolvesFor (CForm.or (isA '1') (isA '2')).words letters (fun d => (CForm.or (isA '1') (isA '2')).Holds d))
          (DigitLines letters "(A==1)|(A==2)".toList) .none .none lines :=
  C78_program exMachine (fun _ => .refl _) (fun _ => .refl _) (pre := []) (post := []) .nil .nil (by simp) (by simp) (by simp)
    (by unfold PlainArg; decide) (by simp) (.inr ⟨by decide, rfl⟩) (.inr ⟨by decide, rfl⟩) (.inr ⟨by decide, rfl⟩) source_or ⟨trivial, trivial⟩
    ⟨['A'], by decide, 'A', by decide, by decide⟩ (by rw [kind_or]; nofun)

end Satisfy.Props
