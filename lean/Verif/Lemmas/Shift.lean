import Verif.Lemmas.Track
import Verif.Lemmas.Locks
import Verif.Props.C06
/-!
# What a message leaves alone

`Shift o m m'`: what a suspended task of another kind than `o` can rely on across a message that records events of kind `o`.
-/

namespace EvmMinter
open Spec

variable [Keccak]

omit [Keccak] in
/-- Nothing is known about the source. -/
def State.Unseen (s : State) (src : EventSource) : Prop :=
  s.eventsToMint.get src = none ∧ s.mintedEvents.get src = none ∧ s.invalidEvents.get src = none

omit [Keccak] in
/-- Deposits stay where they are, or are new. -/
structure DepFrame (s s' : State) : Prop where
  keep : ∀ {src d}, s.eventsToMint.get src = some d → s'.eventsToMint.get src = some d
  back : ∀ {src d}, s'.eventsToMint.get src = some d → s.eventsToMint.get src = some d ∨ s.Unseen src
  unseen : ∀ {src}, s'.Unseen src → s.Unseen src

omit [Keccak] in
theorem DepFrame.refl (s : State) : DepFrame s s := ⟨fun h => h, .inl, fun h => h⟩

omit [Keccak] in
theorem DepFrame.trans {s s' s'' : State} (h : DepFrame s s') (h' : DepFrame s' s'') : DepFrame s s'' := by
  refine ⟨fun hd => h'.keep (h.keep hd), fun hd => ?_, fun hu => h.unseen (h'.unseen hu)⟩
  rcases h'.back hd with h1 | h1
  · exact h.back h1
  · exact .inr (h.unseen h1)

theorem applyEvent_depFrame {s s' : State} {e : Event} (h : applyEvent s e = .ok s') (he : e.origin ≠ .mint) : DepFrame s s' := by
  have hd := applyEvent_dep h
  have key : ∀ D', s'.dep = D' → s'.eventsToMint = D'.toMint ∧ s'.mintedEvents = D'.minted ∧ s'.invalidEvents = D'.invalid := by
    rintro D' rfl; exact ⟨rfl, rfl, rfl⟩
  generalize hD : s'.dep = D' at hd
  obtain ⟨k1, k2, k3⟩ := key D' hD
  cases hd with
  | accept d h1 h2 h3 =>
    simp only [State.dep] at k1 k2 k3
    refine ⟨fun {src d'} hs => ?_, fun {src d'} hs => ?_, fun {src} hu => ?_⟩
    · rw [k1, FMap.get_insert, if_neg (by rintro rfl; rw [show s.eventsToMint.get _ = none from h1] at hs; cases hs)]
      exact hs
    · rw [k1, FMap.get_insert] at hs
      split at hs
      · rename_i hh
        subst hh
        exact .inr ⟨h1, h2, h3⟩
      · exact .inl hs
    · obtain ⟨u1, u2, u3⟩ := hu
      rw [k1, FMap.get_insert] at u1
      split at u1
      · cases u1
      · exact ⟨u1, k2 ▸ u2, k3 ▸ u3⟩
  | mint e src d b sym c hh _ _ _ =>
    rcases hh with ⟨rfl, _⟩ | ⟨a, rfl, _⟩ <;> exact absurd rfl he
  | invalid src reason h1 h2 h3 =>
    simp only [State.dep] at k1 k2 k3
    refine ⟨fun {src d'} hs => by rw [k1]; exact hs, fun {src d'} hs => .inl (by rw [k1] at hs; exact hs), fun {src} hu => ?_⟩
    obtain ⟨u1, u2, u3⟩ := hu
    rw [k3, FMap.get_insert] at u3
    split at u3
    · cases u3
    · exact ⟨k1 ▸ u1, k2 ▸ u2, u3⟩
  | invalidAgain src reason x _ _ _ =>
    simp only [State.dep] at k1 k2 k3
    exact ⟨fun {src d'} hs => by rw [k1]; exact hs, fun {src d'} hs => .inl (by rw [k1] at hs; exact hs),
      fun {src} hu => ⟨k1 ▸ hu.1, k2 ▸ hu.2.1, k3 ▸ hu.2.2⟩⟩
  | quarantine src => exact absurd rfl he
  | other hh =>
    simp only [State.dep] at k1 k2 k3
    exact ⟨fun {src d'} hs => by rw [k1]; exact hs, fun {src d'} hs => .inl (by rw [k1] at hs; exact hs),
      fun {src} hu => ⟨k1 ▸ hu.1, k2 ▸ hu.2.1, k3 ▸ hu.2.2⟩⟩

omit [Keccak] in
theorem DepFrame.setPB {s s' : State} {p p' : List Request} {b b' : BlockNumber} (h : DepFrame s s') :
    DepFrame (s.setPB p b) (s'.setPB p' b') := ⟨h.keep, h.back, h.unseen⟩

theorem registry_of_tracks {log : List Event} {s : State} (h : Tracks log s) : Registry log s := by
  obtain ⟨s₀, h1, _, _, h4⟩ := h
  obtain ⟨r1, r2, r3, r4, r5, r6, r7⟩ := registry_of_replay h1
  rw [h4]
  exact ⟨r1, r2, r3, r4, r5, r6, r7⟩

/-- A deposit that waits for its mint was accepted. -/
theorem accepted_of_tracks {log : List Event} {s : State} (h : Tracks log s) {src : EventSource} {d : Deposit}
    (hd : s.eventsToMint.get src = some d) : d.source = src ∧ d.intoEvent ∈ log := by
  obtain ⟨s₀, h1, _, _, h4⟩ := h
  rw [h4] at hd
  have hd : s₀.eventsToMint.get src = some d := hd
  clear h4
  have key : ∀ src d, s₀.eventsToMint.get src = some d → d.source = src ∧ d.intoEvent ∈ log := by
    refine replay_induct (P := fun log s => ∀ src d, s.eventsToMint.get src = some d → d.source = src ∧ d.intoEvent ∈ log) ?_ ?_ h1
    · intro a s h src d hd
      rw [(ofInit_ok h).1] at hd
      cases hd
    · intro log s e s' _ ih ha src d hd
      have hD := applyEvent_dep ha
      have k : ∀ D', s'.dep = D' → D'.toMint.get src = some d := by rintro D' rfl; exact hd
      generalize hD' : s'.dep = D' at hD
      have k := k D' hD'
      have weak : s.eventsToMint.get src = some d → d.source = src ∧ d.intoEvent ∈ log ++ [e] := fun h =>
        ⟨(ih src d h).1, List.mem_append_left _ (ih src d h).2⟩
      cases hD with
      | accept d' _ _ _ =>
        simp only [FMap.get_insert] at k
        split at k
        · rename_i hh
          cases k
          exact ⟨hh.symm, by simp⟩
        · exact weak k
      | mint e src' _ _ _ _ _ _ _ _ =>
        simp only [FMap.get_erase] at k
        split at k
        · cases k
        · exact weak k
      | invalid _ _ _ _ _ => exact weak k
      | invalidAgain _ _ _ _ _ _ => exact weak k
      | quarantine _ =>
        simp only [FMap.get_erase] at k
        split at k
        · cases k
        · exact weak k
      | other _ => exact weak k
  exact key src d hd

/-- What a message of kind `o` leaves alone. -/
structure Shift (o : Origin) (m m' : Minter) : Prop where
  log : ∃ es, m'.log = m.log ++ es
  fixed : m'.st.fixed = m.st.fixed
  upgradable : o ≠ .lifecycle → m'.st.upgradable = m.st.upgradable
  tokens : ∀ {l c sym}, m.st.erc20Tokens.Has l c sym → m'.st.erc20Tokens.Has l c sym
  deposits : o ≠ .mint → DepFrame m.st m'.st

theorem Grew.shift {o : Origin} {m m' : Minter} (h : Grew o m m') (ht : Tracks m.log m.st) : Shift o m m' := by
  obtain ⟨es, h1, h2⟩ := h.ext
  have ht' := h.tracks ht
  rw [h1] at ht'
  have R := registry_of_tracks ht
  have R' := registry_of_tracks ht'
  obtain ⟨s₀, s₀', e1, e2, e3⟩ := ht.between ht'
  have f : ∀ {l : List Event} {s s' : State}, applyEvents s l = .ok s' → s'.fixed = s.fixed := by
    intro l s s' hs
    exact applyEvents_induct (P := fun x => x.fixed = s.fixed) (fun e _ a b hp ha => (applyEvent_frame ha).1.trans hp) rfl hs
  have hf : m'.st.fixed = m.st.fixed := by
    have := f e3
    rw [e1, e2]; exact this
  have hn : m'.st.evmNetwork = m.st.evmNetwork := congrArg FixedConfig.evmNetwork hf
  refine ⟨⟨es, h1⟩, hf, fun ho => ?_, fun {l c sym} hh => ?_, fun ho => ?_⟩
  · have := applyEvents_induct (P := fun x => x.upgradable = s₀.upgradable)
      (fun e he a b hp ha => ((applyEvent_frame ha).2.1 (by rintro a rfl; exact ho (h2 _ he).symm)).trans hp) rfl e3
    rw [e1, e2]; exact this
  · rw [R'.has, hn, tokensOf_append, List.mem_append]
    exact .inl ((R.has _ _ _).1 hh)
  · have := applyEvents_induct (P := fun x => DepFrame s₀ x)
      (fun e he a b hp ha => hp.trans (applyEvent_depFrame ha (by rw [h2 e he]; exact ho))) (.refl _) e3
    rw [e1, e2]; exact this.setPB

theorem Shift.entry {o : Origin} {m m' : Minter} (h : Shift o m m') (ht : Tracks m.log m.st) (ht' : Tracks m'.log m'.st)
    {a : Address} {x : Principal × String} (hx : m.st.erc20Tokens.getEntryAlt a = some x) :
    m'.st.erc20Tokens.getEntryAlt a = some x := by
  obtain ⟨l, sym⟩ := x
  rw [DMKM.getEntryAlt_eq (registry_of_tracks ht').wf]
  exact h.tokens ((DMKM.getEntryAlt_eq (registry_of_tracks ht).wf).1 hx)

end EvmMinter
