import Verif.Proofs.Signature
import Verif.Props.Tokens
/-!
# `Signature::Parse` succeeds exactly on legal headers
-/

namespace Dkim
open Spec

theorem tagVal_eq (es : TagList) (n : Bytes) : tagVal es n = (es.getTag n).map (·.value) := rfl

theorem tagVal_some {es : TagList} {n v : Bytes} : tagVal es n = some v ↔ ∃ t, es.getTag n = some t ∧ t.value = v := by
  rw [tagVal_eq, Option.map_eq_some_iff]

theorem strtoul_erange {s : Bytes} (h : (strtoul s).2.2 = true) : (strtoul s).1 = 2 ^ 64 - 1 := by
  unfold strtoul at *
  split at h
  · simp at h
  · rename_i h'
    split at h
    · rename_i hv; rw [if_pos hv]
    · simp at h

theorem parse_ok_iff (E : Env) (now : Int) (h : Header) (e0 : Bool) (st' : SigSt) :
    Signature.parse E now h { erange := e0 } = .ok () st' ↔
      ∃ es, TagText 0 (valueText h) es ∧ (es.map Prod.fst).Nodup ∧ st'.sig.tags = es ∧
        Legal E (isArcName h.name) now (tagVal es) st'.sig ∧ (e0 = true → tagVal es b!"l" = none) ∧
        st'.erange = (e0 || xRange es) := by
  unfold Signature.parse
  simp only [es_bind_ok]
  constructor
  · rintro ⟨_, s1, h1, _, s2, h2, _, s3, h3, _, s4, h4, _, s5, h5, _, s6, h6, _, s7, h7, _, s8, h8, _, s9, h9,
      _, s10, h10, _, s11, h11, _, s12, h12, _, s13, h13, h14⟩
    obtain ⟨es, hp, rfl⟩ := (sigTagList_ok _ _ _).1 h1
    obtain ⟨es', ht, hnd, _, hes⟩ := (C11_parse_iff _ _ _).1 hp
    have : es = es' := by simpa using hes
    subst this
    have hnul : ∀ n t, es.getTag n = some t → cstr t.value = t.value := fun n t hg =>
      cstr_eq (ht.no_nul n t (getTag_mem hg))
    rw [sigArc_eq, EStateM.Result.ok.injEq] at h2
    obtain ⟨_, rfl⟩ := h2
    obtain ⟨d, hd, rfl⟩ := (sigD_ok _ _).1 h3
    obtain ⟨rfl, hv⟩ := (sigV_ok _ _).1 h4
    obtain ⟨a, sa, da, ha, hat, rfl⟩ := (sigA_ok _ _).1 h5
    obtain ⟨b, hb, hbne, rfl⟩ := (sigB_ok _ _ _).1 h6
    obtain ⟨bh, hbh, rfl⟩ := (sigBH_ok _ _ _).1 h7
    obtain ⟨m, n, hc, rfl⟩ := (sigC_ok _ _ rfl rfl).1 h8
    obtain ⟨hh, hs, hht, hvl, hfrom, rfl⟩ := (sigH_ok _ _).1 h9
    rw [sigI_eq] at h10
    refine ⟨es, ht, hnd, ?_⟩
    have hfrom' : ∃ n ∈ hs, lower n = b!"from" := by
      obtain ⟨n, hn, hf⟩ := hfrom
      refine ⟨n, hn, ?_⟩
      rw [cstr_eq] at hf
      · exact hf
      · intro h0
        exact ht.no_nul _ _ (getTag_mem hht) ((C10_value_piece _ _ hvl n hn).2.2.subset h0)
    cases harc : isArcName h.name with
    | true =>
      have harc' : decide (lower h.name = b!"arc-message-signature") = true := harc
      simp only [harc', Bool.or_true, if_true] at h10
      obtain ⟨i, hi, hi1, hi2, rfl⟩ := (sigIArc_ok _ _).1 h10
      have hnul_i := hnul _ _ hi
      rw [hnul_i] at hi1 hi2 h11
      have her : (strtoul i.value).2.2 = false := by
        cases hx : (strtoul i.value).2.2 with
        | false => rfl
        | true => have := strtoul_erange hx; omega
      obtain ⟨ln, lim, hl, hle, rfl⟩ := (sigL_ok _ _ rfl rfl (hnul _)).1 h11
      obtain ⟨rfl, hq⟩ := (sigQ_ok _ _).1 h12
      obtain ⟨sel, hsel, rfl⟩ := (sigS_ok _ _).1 h13
      obtain ⟨hx, rfl⟩ := (sigX_ok now _ _ (hnul _)).1 h14
      simp only [her, Bool.or_false] at hle
      refine ⟨rfl, ?_, fun he => ?_, by simp [her]⟩
      · exact {
          kind := by simp [harc']
          version := by simp
          domain := ⟨d.value, tagVal_some.2 ⟨d, hd, rfl⟩, rfl⟩
          selector := tagVal_some.2 ⟨sel, hsel, rfl⟩
          algorithm := ⟨a.value, tagVal_some.2 ⟨a, ha, rfl⟩, hat⟩
          signature := ⟨b.value, tagVal_some.2 ⟨b, hb, rfl⟩, hbne, rfl⟩
          bodyHash := ⟨bh.value, tagVal_some.2 ⟨bh, hbh, rfl⟩, rfl⟩
          canon := hc
          headers := ⟨hh.value, tagVal_some.2 ⟨hh, hht, rfl⟩, hvl⟩
          from_signed := hfrom'
          identity := by simp
          arcIdentity := fun _ => ⟨⟨i.value, tagVal_some.2 ⟨i, hi, rfl⟩, uLong_value.2 rfl, hi1, hi2⟩, rfl, rfl⟩
          length := hl
          query := hq
          notExpired := fun x hx' => sLong_value.2 (hx x hx') }
      · have hg : es.getTag b!"l" = none := hle he
        rw [tagVal_eq, hg]; rfl
    | false =>
      have harc' : decide (lower h.name = b!"arc-message-signature") = false := harc
      simp only [harc', Bool.or_false, Bool.false_eq_true, if_false] at h10
      obtain ⟨loc, dom, hi, rfl⟩ := (sigIDkim_ok _ _).1 h10
      obtain ⟨ln, lim, hl, hle, rfl⟩ := (sigL_ok _ _ rfl rfl (hnul _)).1 h11
      obtain ⟨rfl, hq⟩ := (sigQ_ok _ _).1 h12
      obtain ⟨sel, hsel, rfl⟩ := (sigS_ok _ _).1 h13
      obtain ⟨hx, rfl⟩ := (sigX_ok now _ _ (hnul _)).1 h14
      refine ⟨rfl, ?_, fun he => ?_, rfl⟩
      · exact {
          kind := by simp [harc']
          version := fun _ => by
            obtain ⟨v, hv1, hv2⟩ := hv (by simp [harc'])
            exact tagVal_some.2 ⟨v, hv1, hv2⟩
          domain := ⟨d.value, tagVal_some.2 ⟨d, hd, rfl⟩, rfl⟩
          selector := tagVal_some.2 ⟨sel, hsel, rfl⟩
          algorithm := ⟨a.value, tagVal_some.2 ⟨a, ha, rfl⟩, hat⟩
          signature := ⟨b.value, tagVal_some.2 ⟨b, hb, rfl⟩, hbne, rfl⟩
          bodyHash := ⟨bh.value, tagVal_some.2 ⟨bh, hbh, rfl⟩, rfl⟩
          canon := hc
          headers := ⟨hh.value, tagVal_some.2 ⟨hh, hht, rfl⟩, hvl⟩
          from_signed := hfrom'
          identity := fun _ => ⟨hi, rfl⟩
          arcIdentity := by simp
          length := hl
          query := hq
          notExpired := fun x hx' => sLong_value.2 (hx x hx') }
      · have hg : es.getTag b!"l" = none := hle he
        rw [tagVal_eq, hg]; rfl
  · rintro ⟨es, ht, hnd, htags, L, hle, her⟩
    obtain ⟨sg, er⟩ := st'
    obtain ⟨tags, arc, digest, alg, b', bh', canonHeader, canonBody, domain, headers, mailLocal, mailDomain,
      bodySize, bodySizeLimit, selector, arcInstance⟩ := sg
    simp only at htags her
    subst htags her
    have hnul : ∀ n t, tags.getTag n = some t → cstr t.value = t.value := fun n t hg =>
      cstr_eq (ht.no_nul n t (getTag_mem hg))
    obtain ⟨L1, L2, ⟨d, Ld, rfl⟩, Ls, ⟨a, La, Lat⟩, ⟨b, Lb, Lbne, rfl⟩, ⟨bh, Lbh, rfl⟩, Lc, ⟨hh, Lh, Lhv⟩, Lf, Lid, Larc, Ll, Lq, Lx⟩ := L
    obtain ⟨td, htd, rfl⟩ := tagVal_some.1 Ld
    obtain ⟨ts, hts, rfl⟩ := tagVal_some.1 Ls
    obtain ⟨ta, hta, rfl⟩ := tagVal_some.1 La
    obtain ⟨tb, htb, rfl⟩ := tagVal_some.1 Lb
    obtain ⟨tbh, htbh, rfl⟩ := tagVal_some.1 Lbh
    obtain ⟨th, hth, rfl⟩ := tagVal_some.1 Lh
    simp only at L1
    subst L1
    refine ⟨(), _, (sigTagList_ok _ _ _).2 ⟨tags, (C11_parse_iff _ _ _).2 ⟨tags, ht, hnd, by simp, by simp⟩, rfl⟩, ?_⟩
    refine ⟨(), _, sigArc_eq _ _, ?_⟩
    refine ⟨(), _, (sigD_ok _ _).2 ⟨td, htd, rfl⟩, ?_⟩
    refine ⟨(), _, (sigV_ok _ _).2 ⟨rfl, ?_⟩, ?_⟩
    · intro hz
      exact tagVal_some.1 (L2 (show decide (lower h.name = b!"arc-message-signature") = false by simpa using hz))
    refine ⟨(), _, (sigA_ok _ _).2 ⟨ta, alg, digest, hta, Lat, rfl⟩, ?_⟩
    refine ⟨(), _, (sigB_ok _ _ _).2 ⟨tb, htb, Lbne, rfl⟩, ?_⟩
    refine ⟨(), _, (sigBH_ok _ _ _).2 ⟨tbh, htbh, rfl⟩, ?_⟩
    refine ⟨(), _, (sigC_ok _ _ rfl rfl).2 ⟨canonHeader, canonBody, Lc, rfl⟩, ?_⟩
    refine ⟨(), _, (sigH_ok _ _).2 ⟨th, headers, hth, Lhv, ?_, rfl⟩, ?_⟩
    · obtain ⟨n, hn, hf⟩ := Lf
      refine ⟨n, hn, ?_⟩
      rw [cstr_eq]
      · exact hf
      · intro h0
        exact ht.no_nul _ _ (getTag_mem hth) ((C10_value_piece _ _ Lhv n hn).2.2.subset h0)
    have hle' : e0 = true → tags.getTag b!"l" = none := by
      intro he
      have := hle he
      rw [tagVal_eq] at this
      simpa using this
    cases harc : isArcName h.name with
    | true =>
      have harc' : decide (lower h.name = b!"arc-message-signature") = true := harc
      obtain ⟨⟨v, hv, hv1, hv2, hv3⟩, hml, hmd⟩ := Larc harc
      rw [uLong_value] at hv1
      obtain ⟨ti, hti, rfl⟩ := tagVal_some.1 hv
      have hnul_i := hnul _ _ hti
      have her : (strtoul ti.value).2.2 = false := by
        cases hx : (strtoul ti.value).2.2 with
        | false => rfl
        | true => have := strtoul_erange hx; simp only at hv1 hv2 hv3; omega
      simp only at hv1 hv2 hv3 hml hmd
      subst hv1 hml hmd
      refine ⟨(), _, (sigI_arc (by simp [harc'])).trans ((sigIArc_ok _ _).2
        ⟨ti, hti, by rw [hnul_i]; exact hv2, by rw [hnul_i]; exact hv3, rfl⟩), ?_⟩
      refine ⟨(), _, (sigL_ok _ _ rfl rfl (hnul _)).2 ⟨bodySize, bodySizeLimit, Ll, ?_, rfl⟩, ?_⟩
      · simpa [hnul_i, her] using hle'
      refine ⟨(), _, (sigQ_ok _ _).2 ⟨rfl, Lq⟩, ?_⟩
      refine ⟨(), _, (sigS_ok _ _).2 ⟨ts, hts, rfl⟩, ?_⟩
      refine (sigX_ok now _ _ (hnul _)).2 ⟨fun x hx' => sLong_value.1 (Lx x hx'), ?_⟩
      simp only [hnul_i, her, Bool.or_false, harc', Bool.or_true]
      rfl
    | false =>
      have harc' : decide (lower h.name = b!"arc-message-signature") = false := harc
      obtain ⟨hi, h0⟩ := Lid harc
      simp only at h0
      subst h0
      refine ⟨(), _, (sigI_dkim (by simp [harc'])).trans ((sigIDkim_ok _ _).2 ⟨mailLocal, mailDomain, hi, rfl⟩), ?_⟩
      refine ⟨(), _, (sigL_ok _ _ rfl rfl (hnul _)).2 ⟨bodySize, bodySizeLimit, Ll, hle', rfl⟩, ?_⟩
      refine ⟨(), _, (sigQ_ok _ _).2 ⟨rfl, Lq⟩, ?_⟩
      refine ⟨(), _, (sigS_ok _ _).2 ⟨ts, hts, rfl⟩, ?_⟩
      refine (sigX_ok now _ _ (hnul _)).2 ⟨fun x hx' => sLong_value.1 (Lx x hx'), ?_⟩
      simp only [harc', Bool.or_false]
      rfl

end Dkim
