import Verif.Spec.KeyRecord
import Verif.Proofs.SignatureParse
import Verif.Props.Signature
/-!
# Stepwise semantics of `PublicKey::Parse`
-/

namespace Dkim
open Spec

variable {E : Env}

theorem keyTag_ok (name : Bytes) (k : PublicKey E) (t : Option TagEntry) (k' : PublicKey E) :
    keyTag name k = .ok t k' ↔ t = k.tags.getTag name ∧ k' = k := by
  unfold keyTag
  rw [es_bind, es_get, esBind_ok, es_pure]
  simp only [EStateM.Result.ok.injEq]
  constructor <;> (rintro ⟨rfl, rfl⟩; exact ⟨rfl, rfl⟩)

theorem keyTagList_ok (v : Bytes) (k k' : PublicKey E) :
    keyTagList v k = .ok () k' ↔ ∃ m, TagList.parse v k.tags = .ok () m ∧ k' = { k with tags := m } := by
  unfold keyTagList
  cases TagList.parse v k.tags with
  | ok u m =>
    simp only [EStateM.Result.ok.injEq, true_and]
    constructor
    · rintro rfl; exact ⟨m, rfl, rfl⟩
    · rintro ⟨_, rfl, rfl⟩; rfl
  | error e m => simp

theorem keyV_ok (k k' : PublicKey E) :
    keyV k = .ok () k' ↔ k' = k ∧ (tagVal k.tags b!"v" = none ∨ tagVal k.tags b!"v" = some b!"DKIM1") := by
  unfold keyV
  rw [es_bind_ok, tagVal_eq]
  simp only [keyTag_ok]
  cases k.tags.getTag b!"v" with
  | none =>
    constructor
    · rintro ⟨a, s, ⟨rfl, rfl⟩, h⟩
      simp [pure_ok] at h
      exact ⟨h, Or.inl rfl⟩
    · rintro ⟨rfl, _⟩
      exact ⟨_, _, ⟨rfl, rfl⟩, by simp [pure_ok]⟩
  | some t =>
    constructor
    · rintro ⟨a, s, ⟨rfl, rfl⟩, h⟩
      by_cases ht : t.value = b!"DKIM1"
      · simp only [ht] at h
        simp [pure_ok] at h
        exact ⟨h, by simp [ht]⟩
      · simp [ht, throw_ok] at h
    · rintro ⟨rfl, h⟩
      have ht : t.value = b!"DKIM1" := by simpa using h
      exact ⟨_, _, ⟨rfl, rfl⟩, by simp [ht, pure_ok]⟩

theorem mem_digests (names : List Bytes) (d : DigestAlg) :
    d ∈ names.filterMap digestOf ↔ digestName d ∈ names := by
  rw [List.mem_filterMap]
  constructor
  · rintro ⟨a, ha, h⟩
    unfold digestOf at h
    split at h
    · rename_i e; cases h; rw [e] at ha; exact ha
    · split at h
      · rename_i e; cases h; rw [e] at ha; exact ha
      · cases h
  · intro h
    refine ⟨_, h, ?_⟩
    cases d <;> decide

theorem keyH_ok (k k' : PublicKey E) (h0 : k.digests = []) :
    keyH k = .ok () k' ↔ ∃ ds, k' = { k with digests := ds } ∧
      ((tagVal k.tags b!"h" = none ∧ ds = []) ∨ ∃ v names, tagVal k.tags b!"h" = some v ∧ v ≠ [] ∧
        valueList v = .ok names ∧ ds = names.filterMap digestOf) := by
  unfold keyH
  rw [es_bind_ok, tagVal_eq]
  simp only [keyTag_ok]
  cases k.tags.getTag b!"h" with
  | none =>
    constructor
    · rintro ⟨a, s, ⟨rfl, rfl⟩, h⟩
      simp [pure_ok] at h
      exact ⟨[], by rw [h]; obtain ⟨⟩ := s; simp_all, Or.inl ⟨rfl, rfl⟩⟩
    · rintro ⟨ds, rfl, h⟩
      rcases h with ⟨_, rfl⟩ | ⟨v, names, h, _⟩
      · exact ⟨none, _, ⟨rfl, rfl⟩, by simp [pure_ok]; obtain ⟨⟩ := k; simp_all⟩
      · simp at h
  | some t =>
    constructor
    · rintro ⟨a, s, ⟨rfl, rfl⟩, h⟩
      by_cases ht : t.value = []
      · simp [ht, es_bind_ok, throw_ok] at h
      · simp only [List.isEmpty_iff, ht, if_false, es_bind_ok, liftE_ok, modify_ok] at h
        obtain ⟨names, s2, ⟨hv, rfl⟩, rfl⟩ := h
        exact ⟨_, rfl, Or.inr ⟨_, names, rfl, ht, hv, by simp [h0]⟩⟩
    · rintro ⟨ds, rfl, h⟩
      rcases h with ⟨h, _⟩ | ⟨v, names, h, hne, hv, rfl⟩
      · simp at h
      · simp only [Option.map_some, Option.some.injEq] at h
        subst h
        refine ⟨some t, k, ⟨rfl, rfl⟩, ?_⟩
        simp only [List.isEmpty_iff, hne, if_false, es_bind_ok, liftE_ok, modify_ok]
        exact ⟨names, k, ⟨hv, rfl⟩, by simp [h0]⟩

theorem keyK_ok (k k' : PublicKey E) (h0 : k.alg = .rsa) :
    keyK k = .ok () k' ↔ ∃ a, k' = { k with alg := a } ∧ KeyType (tagVal k.tags b!"k") a := by
  unfold keyK
  rw [es_bind_ok, tagVal_eq]
  simp only [keyTag_ok]
  cases k.tags.getTag b!"k" with
  | none =>
    constructor
    · rintro ⟨a, s, ⟨rfl, rfl⟩, h⟩
      simp [pure_ok] at h
      exact ⟨.rsa, by rw [h]; obtain ⟨⟩ := s; simp_all, .absent⟩
    · rintro ⟨a, rfl, h⟩
      cases h
      exact ⟨none, _, ⟨rfl, rfl⟩, by simp [pure_ok]; obtain ⟨⟩ := k; simp_all⟩
  | some t =>
    constructor
    · rintro ⟨a, s, ⟨rfl, rfl⟩, h⟩
      simp only at h
      split at h
      · rename_i e; rw [modify_ok] at h; exact ⟨.rsa, h, by simp only [Option.map_some, e]; exact .rsa⟩
      · split at h
        · rename_i e; rw [modify_ok] at h; exact ⟨.ed25519, h, by simp only [Option.map_some, e]; exact .ed⟩
        · simp [throw_ok] at h
    · rintro ⟨a, rfl, h⟩
      refine ⟨some t, k, ⟨rfl, rfl⟩, ?_⟩
      simp only [Option.map_some] at h
      simp only
      generalize t.value = v at h ⊢
      cases h <;> simp [modify_ok]

theorem keyP_ok (k k' : PublicKey E) (h0 : k.rsa = none) (h1 : k.ed = []) :
    keyP k = .ok () k' ↔ ∃ p r e, tagVal k.tags b!"p" = some p ∧ p ≠ [] ∧
      KeyData E k.alg (E.b64dec (p.filter (fun c => !isSpace c))) r e ∧ k' = { k with rsa := r, ed := e } := by
  unfold keyP
  rw [es_bind_ok, tagVal_eq]
  simp only [keyTag_ok]
  cases k.tags.getTag b!"p" with
  | none => simp [throw_ok]
  | some t =>
    constructor
    · rintro ⟨a, s, ⟨rfl, rfl⟩, h⟩
      by_cases ht : t.value = []
      · simp [ht, es_bind_ok, throw_ok] at h
      · simp only [List.isEmpty_iff, ht, if_false, es_bind_ok, get_ok] at h
        obtain ⟨_, k2, ⟨rfl, rfl⟩, h⟩ := h
        refine ⟨t.value, ?_⟩
        cases ha : k2.alg with
        | rsa =>
          rw [ha] at h
          simp only at h
          cases hd : E.d2iPubkey (E.b64dec (stripSpace t.value)) with
          | none => rw [hd] at h; simp [throw_ok] at h
          | some o =>
            rw [hd] at h
            cases o with
            | none => simp [throw_ok] at h
            | some key =>
              simp only [modify_ok] at h
              exact ⟨some key, [], rfl, ht, .rsa _ _ hd, by rw [h, h1, ha]⟩
        | ed25519 =>
          rw [ha] at h
          simp only at h
          by_cases hl : (E.b64dec (stripSpace t.value)).length = 32
          · simp only [hl, ne_eq, not_true_eq_false, if_false, modify_ok] at h
            exact ⟨none, _, rfl, ht, .ed _ hl, by rw [h, h0, ha]; rfl⟩
          · simp [hl, es_bind_ok, throw_ok] at h
    · rintro ⟨p, r, e, hp, hne, hk, rfl⟩
      simp only [Option.map_some, Option.some.injEq] at hp
      subst hp
      refine ⟨some t, k, ⟨rfl, rfl⟩, ?_⟩
      simp only [List.isEmpty_iff, hne, if_false, es_bind_ok, get_ok]
      refine ⟨k, k, ⟨rfl, rfl⟩, ?_⟩
      have hs : stripSpace t.value = t.value.filter (fun c => !isSpace c) := rfl
      rw [← hs] at hk
      generalize E.b64dec (stripSpace t.value) = dat at hk ⊢
      obtain ⟨tags, digests, rsa, ed, alg, se, fl⟩ := k
      simp only at *
      subst h0 h1
      cases hk with
      | rsa _ key hd => simp [hd, modify_ok]
      | ed _ hl => simp [hl, modify_ok]

theorem serviceLoop_eq (n : Nat) (names : List Bytes) :
    serviceLoop n names = if b!"*" ∈ names then 0 else n + names.count b!"email" := by
  induction names generalizing n with
  | nil => simp [serviceLoop]
  | cons t ts ih =>
    unfold serviceLoop
    by_cases h1 : t = b!"email"
    · subst h1
      have h2 : (b!"*" : Bytes) ≠ b!"email" := by decide
      have h3 : (b!"*" : Bytes) ∈ (b!"email" :: ts) ↔ b!"*" ∈ ts := by
        rw [List.mem_cons]; exact ⟨fun h => h.resolve_left h2, Or.inr⟩
      rw [if_pos rfl, ih]
      by_cases h4 : (b!"*" : Bytes) ∈ ts
      · rw [if_pos h4, if_pos (h3.2 h4)]
      · rw [if_neg h4, if_neg (fun h => h4 (h3.1 h)), List.count_cons_self]; omega
    · rw [if_neg h1]
      by_cases h2 : t = b!"*"
      · subst h2; simp
      · rw [if_neg h2, ih, List.count_cons_of_ne h1]
        have h3 : (b!"*" : Bytes) ∈ (t :: ts) ↔ b!"*" ∈ ts := by
          rw [List.mem_cons]; exact ⟨fun h => h.resolve_left (Ne.symm h2), Or.inr⟩
        by_cases h4 : (b!"*" : Bytes) ∈ ts
        · rw [if_pos h4, if_pos (h3.2 h4)]
        · rw [if_neg h4, if_neg (fun h => h4 (h3.1 h))]

theorem keyS_ok (k k' : PublicKey E) (h0 : k.serviceEmail = 0) :
    keyS k = .ok () k' ↔ ∃ n, k' = { k with serviceEmail := n } ∧ ServiceTag (tagVal k.tags b!"s") n := by
  unfold keyS
  rw [es_bind_ok, tagVal_eq]
  simp only [keyTag_ok]
  cases k.tags.getTag b!"s" with
  | none =>
    constructor
    · rintro ⟨a, s, ⟨rfl, rfl⟩, h⟩
      simp [pure_ok] at h
      exact ⟨0, by rw [h]; obtain ⟨⟩ := s; simp_all, .absent⟩
    · rintro ⟨ds, rfl, h⟩
      cases h
      exact ⟨none, _, ⟨rfl, rfl⟩, by simp [pure_ok]; obtain ⟨⟩ := k; simp_all⟩
  | some t =>
    constructor
    · rintro ⟨a, s, ⟨rfl, rfl⟩, h⟩
      by_cases ht : t.value = []
      · simp [ht, es_bind_ok, throw_ok] at h
      · simp only [List.isEmpty_iff, ht, if_false, es_bind_ok, liftE_ok, modify_ok] at h
        obtain ⟨names, s2, ⟨hv, rfl⟩, rfl⟩ := h
        refine ⟨_, rfl, ?_⟩
        rw [serviceLoop_eq, h0]
        simp only [Option.map_some]
        by_cases hm : (b!"*" : Bytes) ∈ names
        · rw [if_pos hm]; exact .any _ names ht hv hm
        · rw [if_neg hm, Nat.zero_add]; exact .listed _ names ht hv hm
    · rintro ⟨n, rfl, h⟩
      refine ⟨some t, k, ⟨rfl, rfl⟩, ?_⟩
      simp only [Option.map_some] at h
      cases h with
      | any v names hne hv hm =>
        simp only [List.isEmpty_iff, hne, if_false, es_bind_ok, liftE_ok, modify_ok]
        exact ⟨names, k, ⟨hv, rfl⟩, by rw [serviceLoop_eq, if_pos hm]⟩
      | listed v names hne hv hm =>
        simp only [List.isEmpty_iff, hne, if_false, es_bind_ok, liftE_ok, modify_ok]
        exact ⟨names, k, ⟨hv, rfl⟩, by rw [serviceLoop_eq, if_neg hm, h0, Nat.zero_add]⟩

theorem keyT_ok (k k' : PublicKey E) (h0 : k.flags = []) :
    keyT k = .ok () k' ↔ ∃ fl, k' = { k with flags := fl } ∧ FlagsTag (tagVal k.tags b!"t") fl := by
  unfold keyT
  rw [es_bind_ok, tagVal_eq]
  simp only [keyTag_ok]
  cases k.tags.getTag b!"t" with
  | none =>
    constructor
    · rintro ⟨a, s, ⟨rfl, rfl⟩, h⟩
      simp [pure_ok] at h
      exact ⟨[], by rw [h]; obtain ⟨⟩ := s; simp_all, .absent⟩
    · rintro ⟨ds, rfl, h⟩
      cases h
      exact ⟨none, _, ⟨rfl, rfl⟩, by simp [pure_ok]; obtain ⟨⟩ := k; simp_all⟩
  | some t =>
    constructor
    · rintro ⟨a, s, ⟨rfl, rfl⟩, h⟩
      simp only [es_bind_ok, liftE_ok, modify_ok] at h
      obtain ⟨names, s2, ⟨hv, rfl⟩, rfl⟩ := h
      exact ⟨names, rfl, .present _ _ hv⟩
    · rintro ⟨fl, rfl, h⟩
      refine ⟨some t, k, ⟨rfl, rfl⟩, ?_⟩
      simp only [Option.map_some] at h
      cases h with
      | present v names hv =>
        simp only [es_bind_ok, liftE_ok, modify_ok]
        exact ⟨fl, k, ⟨hv, rfl⟩, rfl⟩

/-- What `Parse` does on a fresh object. -/
theorem keyParse_ok_iff (txt : Bytes) (k' : PublicKey E) :
    PublicKey.parse txt ({} : PublicKey E) = .ok () k' ↔
      ∃ es, TagText 0 txt es ∧ (es.map Prod.fst).Nodup ∧ k'.tags = es ∧ LegalKey E (tagVal es) k' ∧
        (∀ v names, tagVal es b!"h" = some v → valueList v = .ok names →
          k'.digests = names.filterMap digestOf) := by
  unfold PublicKey.parse
  simp only [es_bind_ok]
  constructor
  · rintro ⟨_, k1, h1, _, k2, h2, _, k3, h3, _, k4, h4, _, k5, h5, _, k6, h6, h7⟩
    obtain ⟨m, hm, rfl⟩ := (keyTagList_ok _ _ _).1 h1
    obtain ⟨es, ht, hnd, _, hmes⟩ := (C11_parse_iff _ _ _).1 hm
    simp only [List.nil_append] at hmes
    subst hmes
    obtain ⟨rfl, hv⟩ := (keyV_ok _ _).1 h2
    obtain ⟨ds, rfl, hh⟩ := (keyH_ok _ _ rfl).1 h3
    obtain ⟨a, rfl, hk⟩ := (keyK_ok _ _ rfl).1 h4
    obtain ⟨p, r, e, hp, hpne, hpk, rfl⟩ := (keyP_ok _ _ rfl rfl).1 h5
    obtain ⟨n, rfl, hs⟩ := (keyS_ok _ _ rfl).1 h6
    obtain ⟨fl, rfl, hf⟩ := (keyT_ok _ _ rfl).1 h7
    refine ⟨m, ht, hnd, rfl, ⟨hv, ?_, hk, ⟨p, hp, hpne, hpk⟩, hs, hf⟩, ?_⟩
    · simp only at hh ⊢
      rcases hh with ⟨hh, rfl⟩ | ⟨v, names, hh, hne, hvl, rfl⟩
      · rw [hh]
        have : (fun d => d ∈ ([] : List DigestAlg)) = fun _ => False := by funext d; simp
        rw [this]; exact .absent
      · rw [hh]
        have : (fun d => d ∈ names.filterMap digestOf) = fun d => digestName d ∈ names := by
          funext d; exact propext (mem_digests names d)
        rw [this]; exact .present v names hne hvl
    · intro v names hv' hvl'
      simp only at hh ⊢
      rcases hh with ⟨hh, rfl⟩ | ⟨v2, names2, hh, hne, hvl, rfl⟩
      · rw [hh] at hv'; cases hv'
      · rw [hh] at hv'; cases hv'; rw [hvl] at hvl'; cases hvl'; rfl
  · rintro ⟨es, ht, hnd, htags, L, hdig⟩
    obtain ⟨tags, digests, rsa, ed, alg, se, fl⟩ := k'
    simp only at htags
    subst htags
    obtain ⟨hv, hh, hk, ⟨p, hp, hpne, hpk⟩, hs, hf⟩ := L
    refine ⟨(), _, (keyTagList_ok _ _ _).2 ⟨tags, (C11_parse_iff _ _ _).2 ⟨tags, ht, hnd, by simp, by simp⟩, rfl⟩, ?_⟩
    refine ⟨(), _, (keyV_ok _ _).2 ⟨rfl, hv⟩, ?_⟩
    refine ⟨(), _, (keyH_ok _ _ rfl).2 ⟨digests, rfl, ?_⟩, ?_⟩
    · simp only at hh hdig ⊢
      generalize hP : (fun d => d ∈ digests) = P at hh
      generalize tagVal tags b!"h" = hv at hh hdig
      cases hh with
      | absent =>
        refine Or.inl ⟨rfl, ?_⟩
        cases digests with
        | nil => rfl
        | cons d ds =>
          have := congrFun hP d
          simp at this
      | present v names hne hvl => exact Or.inr ⟨v, names, rfl, hne, hvl, hdig v names rfl hvl⟩
    refine ⟨(), _, (keyK_ok _ _ rfl).2 ⟨alg, rfl, hk⟩, ?_⟩
    refine ⟨(), _, (keyP_ok _ _ rfl rfl).2 ⟨p, rsa, ed, hp, hpne, hpk, rfl⟩, ?_⟩
    refine ⟨(), _, (keyS_ok _ _ rfl).2 ⟨se, rfl, hs⟩, ?_⟩
    exact (keyT_ok _ _ rfl).2 ⟨fl, rfl, hf⟩

theorem keyParse_perm (txt : Bytes) : FailsPerm (PublicKey.parse txt : KeyM E Unit) := by
  have tag : ∀ n, FailsPerm (keyTag n : KeyM E _) := fun n => .bind .get fun _ => .pure _
  unfold PublicKey.parse
  refine .bind ?_ fun _ => .bind ?_ fun _ => .bind ?_ fun _ => .bind ?_ fun _ => .bind ?_ fun _ => .bind ?_ fun _ => ?_
  · intro st e st' h
    unfold keyTagList at h
    cases hp : TagList.parse txt st.tags with
    | ok u m => rw [hp] at h; cases h
    | error e2 m => rw [hp] at h; cases h; exact TagList.parse_perm _ _ _ _ hp
  · refine .bind (tag _) fun a => ?_
    cases a with
    | none => exact .pure _
    | some t => exact .ite (.throw _) (.pure _)
  · refine .bind (tag _) fun a => ?_
    cases a with
    | none => exact .pure _
    | some t =>
      have : FailsPerm (do
        let algo ← liftE (valueList t.value)
        modify (fun k => { k with digests := k.digests ++ algo.filterMap digestOf }) : KeyM E Unit) :=
        .bind (.lift (valueList_perm _)) fun _ => .modify _
      exact .ite (.bind (.throw _) fun _ => this) this
  · refine .bind (tag _) fun a => ?_
    cases a with
    | none => exact .pure _
    | some t => exact .ite (.modify _) (.ite (.modify _) (.throw _))
  · refine .bind (tag _) fun a => ?_
    cases a with
    | none => exact .throw _
    | some t =>
      have : FailsPerm (do
        match (← get).alg with
        | .rsa =>
          match E.d2iPubkey (E.b64dec (stripSpace t.value)) with
          | none => throw (.p .keyBadDER)
          | some none => throw (.p .keyNotRSA)
          | some (some key) => modify ({ · with rsa := some key })
        | .ed25519 =>
          if (E.b64dec (stripSpace t.value)).length ≠ 32 then throw (.p .keyBadEd)
          modify ({ · with ed := E.b64dec (stripSpace t.value) }) : KeyM E Unit) := by
        refine .bind .get fun k => ?_
        cases k.alg with
        | rsa =>
          simp only
          split
          · exact .throw _
          · exact .throw _
          · exact .modify _
        | ed25519 => exact .ite (.bind (.throw _) fun _ => .modify _) (.modify _)
      exact .ite (.bind (.throw _) fun _ => this) this
  · refine .bind (tag _) fun a => ?_
    cases a with
    | none => exact .pure _
    | some t =>
      have : FailsPerm (do
        let types ← liftE (valueList t.value)
        modify (fun k => { k with serviceEmail := serviceLoop k.serviceEmail types }) : KeyM E Unit) :=
        .bind (.lift (valueList_perm _)) fun _ => .modify _
      exact .ite (.bind (.throw _) fun _ => this) this
  · refine .bind (tag _) fun a => ?_
    cases a with
    | none => exact .pure _
    | some t => exact .bind (.lift (valueList_perm _)) fun _ => .modify _

end Dkim
