import Verif.Spec.Thresholds
import Verif.Proofs.Vocab
import Mathlib.Data.List.NodupEquivFin
import Mathlib.Order.WellFounded

/-!
# Lemmas on thresholds and parts of the training data
-/

namespace Verif

theorem vocabWords_sublist {th th' : Int} {xs xs' : List Str} (h : th ≤ th') (hx : xs'.Sublist xs) :
    (vocabWords th' xs').Sublist (vocabWords th xs) := by
  have hs : ∀ t zs, (vocabWords t zs).Pairwise (· ≤ ·) := fun t zs =>
    pySorted_pairwise _ (fun a b => le_total a b) (fun a b c hab hbc => le_trans hab hbc) _
  refine List.sublist_of_subperm_of_pairwise (r := fun a b : Str => a ≤ b) ?_ (hs _ _) (hs _ _)
  refine List.subperm_of_subset (vocabWords_nodup _ _) (fun w hw => ?_)
  obtain ⟨h1, h2⟩ := mem_vocabWords.mp hw
  refine mem_vocabWords.mpr ⟨hx.subset h1, ?_⟩
  have := hx.count_le w
  omega

theorem vocabulary_extends {th th' : Int} {xs xs' : List Str} (base : Int) (h : th ≤ th') (hx : xs'.Sublist xs) :
    Extends (vocabulary th base xs) (vocabulary th' base xs') := by
  have hs := vocabWords_sublist h hx
  obtain ⟨f, hf⟩ := List.sublist_iff_exists_orderEmbedding_getElem?_eq.mp hs
  have key : ∀ w i', (vocabulary th' base xs').get? w = some i' →
      ∃ n : Nat, i' = base + n ∧ (vocabulary th base xs).get? w = some (base + (f n : Nat)) := by
    intro w i' hw
    obtain ⟨n, hn, rfl⟩ := (vocabulary_get? ..).mp hw
    exact ⟨n, rfl, (vocabulary_get? ..).mpr ⟨f n, by rw [← hf]; exact hn, rfl⟩⟩
  refine ⟨?_, ?_, ?_⟩
  · intro w i' hw
    obtain ⟨n, rfl, hn⟩ := key w i' hw
    refine ⟨_, hn, ?_⟩
    have : n ≤ f n := f.strictMono.le_apply
    omega
  · intro w v i j i' j' hw hv hi hj
    obtain ⟨n, rfl, hn⟩ := key w i' hw
    obtain ⟨m, rfl, hm⟩ := key v j' hv
    rw [hn] at hi
    rw [hm] at hj
    cases hi
    cases hj
    have : f n < f m ↔ n < m := f.lt_iff_lt
    omega
  · rw [vocabulary_length, vocabulary_length]
    exact hs.length_le

end Verif
