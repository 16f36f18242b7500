import Verif.Proofs.StepNested
/-!
# Steps of `ParseAddressList` on a quoted string that is not closed
-/

namespace Dkim.Steps
open SS (toChar code)

variable {input : Bytes} {i n : Nat}

theorem ex_get_end (h : input.drop i = []) :
    get (at' input i, n) = .ok none ({ at' input i with eof := true, fail := true }, n + 1) := by
  have hp : input[i]? = none := by
    rw [List.getElem?_eq_none_iff]
    exact List.drop_eq_nil_iff.1 h
  have e : SS.get (at' input i) = .ok none { at' input i with eof := true, fail := true } := by
    unfold SS.get at'
    rw [if_pos (by rfl)]
    simp only [hp]
  exact ex_tick e

theorem ex_unclosed : ∀ (m fuel i n : Nat) (t : Bytes), m < fuel → input.drop i = List.replicate m 97 →
    ∃ s, quotedLoop true fuel t (at' input i, n) = .error (.perm .unclosedString none none) (s, n + m + 1)
  | 0, fuel, i, n, t, hf, h => by
    obtain ⟨fuel, rfl⟩ : ∃ f, fuel = f + 1 := ⟨fuel - 1, by omega⟩
    refine ⟨{ at' input i with eof := true, fail := true }, ?_⟩
    unfold quotedLoop
    rw [es_bind, ex_get_end h, esBind_ok]
    rfl
  | m + 1, fuel, i, n, t, hf, h => by
    obtain ⟨fuel, rfl⟩ : ∃ f, fuel = f + 1 := ⟨fuel - 1, by omega⟩
    rw [List.replicate_succ] at h
    obtain ⟨h1, h2⟩ := get_of_drop h
    obtain ⟨s, hs⟩ := ex_unclosed m fuel (i + 1) (n + 1) (t ++ [97]) (by omega) h2
    refine ⟨s, ?_⟩
    unfold quotedLoop
    rw [es_bind, ex_get h1, esBind_ok]
    show quotedLoop true fuel (t ++ [97]) _ = _
    rw [hs, show n + 1 + m + 1 = n + (m + 1) + 1 from by omega]

/-- A quotation mark and `m` letters. -/
theorem address_unclosed (lr : Bool) (m : Nat) :
    parseAddressList lr true (34 :: List.replicate m 97) = (.error (.perm .unclosedString none none), m + 8) := by
  unfold parseAddressList
  rw [depth_succ]
  generalize hi : (34 :: List.replicate m 97 : Bytes) = input
  have h : input.drop 0 = 34 :: List.replicate m 97 := by rw [← hi]; rfl
  have hlen : input.length = m + 1 := by rw [← hi]; simp
  obtain ⟨h1, h2⟩ := get_of_drop h
  have hl : ∀ j k, left (at' input j, k) = .ok (input.length - j) (at' input j, k) := fun _ _ => rfl
  obtain ⟨s, hs⟩ := ex_unclosed (input := input) m (input.length - 1 + 1) 1 (0 + 1 + 3 + 1 + 1 + 1) [] (by omega) h2
  have ht : nextTok lr true (input.length - 0 + 1) [] (at' input 0, 0) =
      .error (.perm .unclosedString none none) (s, 0 + 1 + 3 + 1 + 1 + 1 + m + 1) := by
    unfold nextTok
    simp only
    rw [es_bind, ex_eof h1, esBind_ok, if_neg (by decide), es_bind, ex_fws_no lr h1 (by decide) (by decide) (by decide), esBind_ok,
      if_neg (by decide), es_bind, ex_eof h1, esBind_ok, if_neg (by decide), es_bind, ex_is h1, esBind_ok, if_pos (by decide),
      if_neg (by decide), es_bind, ex_get h1, esBind_ok, es_bind, hl, esBind_ok, es_bind, hs]
    rfl
  have ha : addrLoop lr true (parseAddrDepth lr true input.length) (input.length + 2) {} (at' input 0, 0) =
      .error (.perm .unclosedString none none) (s, 0 + 1 + 3 + 1 + 1 + 1 + m + 1) := by
    rw [addrLoop_succ, if_neg (by decide), es_bind, hl, esBind_ok, es_bind, ht]
    rfl
  unfold run
  have h0 : (({ data := input } : SS), 0) = (at' input 0, 0) := rfl
  rw [h0, ha]
  simp only [Prod.mk.injEq, true_and]
  omega

end Dkim.Steps
