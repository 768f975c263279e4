import Mathlib.Data.Finset.Card
import Mathlib.Data.Finset.Dedup
import Verif.Model.Rpc
/-!
# C39: agreement between providers
-/

namespace EvmMinter
namespace Rpc

variable {α β K : Type}

/-! ## What the reports say -/

/-- A report entry is a successful answer. -/
def isOk (x : Provider × Except SingleCallError α) : Bool :=
  match x.2 with
  | .ok _ => true
  | .error _ => false

/-- The providers whose successful answer has this key. -/
def supporters [DecidableEq K] (key : α → K) (l : List (Provider × Except SingleCallError α)) (k : K) : Finset Provider :=
  ((l.filter fun x => match x.2 with
    | .ok a => decide (key a = k)
    | .error _ => false).map (·.1)).toFinset

theorem mem_supporters [DecidableEq K] {key : α → K} {l : List (Provider × Except SingleCallError α)} {k : K} {p : Provider} :
    p ∈ supporters key l k ↔ ∃ a, (p, .ok a) ∈ l ∧ key a = k := by
  unfold supporters
  rw [List.mem_toFinset, List.mem_map]
  constructor
  · rintro ⟨⟨q, r⟩, hm, rfl⟩
    rw [List.mem_filter] at hm
    cases r with
    | ok a => exact ⟨a, hm.1, by simpa using hm.2⟩
    | error e => simp at hm
  · rintro ⟨a, hm, hk⟩
    exact ⟨(p, .ok a), by rw [List.mem_filter]; exact ⟨hm, by simpa using hk⟩, rfl⟩

theorem mem_okResults {l : List (Provider × Except SingleCallError α)} {p : Provider} {a : α} :
    (p, a) ∈ okResults l ↔ (p, .ok a) ∈ l := by
  unfold okResults
  rw [List.mem_filterMap]
  constructor
  · rintro ⟨⟨q, r⟩, hm, h⟩
    cases r with
    | ok b => simp only [Option.some.injEq, Prod.mk.injEq] at h; obtain ⟨rfl, rfl⟩ := h; exact hm
    | error e => simp at h
  · intro h
    exact ⟨(p, .ok a), h, rfl⟩

theorem length_okResults (l : List (Provider × Except SingleCallError α)) : (okResults l).length = l.countP isOk := by
  induction l with
  | nil => rfl
  | cons x t ih =>
    obtain ⟨p, r⟩ := x
    cases r with
    | ok a => rw [List.countP_cons_of_pos (by rfl), ← ih]; rfl
    | error e => rw [List.countP_cons_of_neg (by simp [isOk]), ← ih]; rfl

theorem atLeastTwoOk_inconsistent {l : List (Provider × Except SingleCallError α)} (h : 2 ≤ l.countP isOk) :
    (MultiCallError.inconsistent l).atLeastTwoOk = .ok (okResults l) := by
  rw [← length_okResults] at h
  unfold MultiCallError.atLeastTwoOk
  dsimp only
  split
  · omega
  · omega
  · rfl

theorem atLeastTwoOk_error {e : MultiCallError α} (h : ∀ l, e = .inconsistent l → l.countP isOk < 2) : e.atLeastTwoOk = .error e := by
  cases e with
  | inconsistent l =>
    have h := h l rfl
    rw [← length_okResults] at h
    unfold MultiCallError.atLeastTwoOk
    dsimp only
    rcases (by omega : (okResults l).length = 0 ∨ (okResults l).length = 1) with h | h <;> rw [h] <;> rfl
  | http e => rfl
  | jsonRpc c m => rfl
  | evmRpcCanister t => rfl

theorem twoOk_cases (e : MultiCallError α) :
    (∃ l, e = .inconsistent l ∧ 2 ≤ l.countP isOk ∧ e.atLeastTwoOk = .ok (okResults l)) ∨
    ((∀ l, e = .inconsistent l → l.countP isOk < 2) ∧ e.atLeastTwoOk = .error e) := by
  by_cases h : ∃ l, e = .inconsistent l ∧ 2 ≤ l.countP isOk
  · obtain ⟨l, rfl, h⟩ := h
    exact .inl ⟨l, rfl, h, atLeastTwoOk_inconsistent h⟩
  · have h' : ∀ l, e = .inconsistent l → l.countP isOk < 2 := fun l hl => by
      by_contra hc
      exact h ⟨l, hl, by omega⟩
    exact .inr ⟨h', atLeastTwoOk_error h'⟩

/-! ## Equality -/

/-- A value is accepted exactly if the RPC canister reported it as common answer, or at least two answers were successful
and all of them are this value; otherwise the error is passed on unchanged. -/
theorem C39_equality [DecidableEq α] (r : Reduced α) :
    (∀ v, reduceWithEquality r = .ok v ↔ r = .ok v ∨
      ∃ l, r = .error (.inconsistent l) ∧ 2 ≤ l.countP isOk ∧ ∀ p w, (p, .ok w) ∈ l → w = v) ∧
    ∀ e, reduceWithEquality r = .error e → r = .error e := by
  cases r with
  | ok a =>
    unfold reduceWithEquality
    simp
  | error e =>
    unfold reduceWithEquality
    dsimp only
    rcases twoOk_cases e with ⟨l, rfl, h2, he⟩ | ⟨h2, he⟩
    · rw [he]
      dsimp only
      have hlen := length_okResults l
      cases ho : okResults l with
      | nil => rw [ho] at hlen; simp at hlen; omega
      | cons x t =>
        obtain ⟨p, base⟩ := x
        have hin : (p, Except.ok base) ∈ l := mem_okResults.1 (by rw [ho]; exact List.mem_cons_self)
        simp only [List.head?_cons]
        by_cases hall : ∀ q w, (q, Except.ok w) ∈ l → w = base
        · have hf : (((p, base) :: t).filter fun x => decide (base ≠ x.2)) = [] := by
            rw [List.filter_eq_nil_iff]
            rintro ⟨q, w⟩ hm
            rw [← ho] at hm
            have := hall q w (mem_okResults.1 hm)
            simp [this]
          rw [hf]
          refine ⟨fun v => ?_, fun e h => by simp at h⟩
          simp only [List.map_nil, List.length_nil, Except.ok.injEq, reduceCtorEq, false_or, Except.error.injEq, MultiCallError.inconsistent.injEq]
          constructor
          · rintro rfl
            exact ⟨l, rfl, h2, hall⟩
          · rintro ⟨l', rfl, _, h⟩
            exact h p base hin
        · have hne : ∀ n, (((p, base) :: t).filter fun x => decide (base ≠ x.2)).map (·.2) = n → n.length ≠ 0 := by
            rintro n rfl h0
            rw [List.length_map, List.length_eq_zero_iff, List.filter_eq_nil_iff] at h0
            refine hall fun q w hm => ?_
            have := h0 (q, w) (by rw [← ho]; exact mem_okResults.2 hm)
            simpa using (by simpa using this : base = w).symm
          split
          · exact absurd (by assumption) (hne _ rfl)
          · refine ⟨fun v => ?_, fun e h => h⟩
            simp only [reduceCtorEq, false_or, false_iff, Except.error.injEq, MultiCallError.inconsistent.injEq]
            rintro ⟨l', rfl, _, h⟩
            refine hall fun q w hm => ?_
            rw [h q w hm, h p base hin]
    · rw [he]
      refine ⟨fun v => ?_, fun e' h => h⟩
      simp only [reduceCtorEq, false_or, false_iff, Except.error.injEq]
      rintro ⟨l, hl, h, _⟩
      have := h2 l hl
      omega

theorem two_of_countP {γ : Type} {p : γ → Bool} {l : List γ} (h : 2 ≤ l.countP p) (hn : l.Nodup) :
    ∃ x ∈ l, ∃ y ∈ l, x ≠ y ∧ p x = true ∧ p y = true := by
  rw [List.countP_eq_length_filter] at h
  cases hf : l.filter p with
  | nil => rw [hf] at h; simp at h
  | cons x t =>
    cases t with
    | nil => rw [hf] at h; simp at h
    | cons y t' =>
      have hx : x ∈ l.filter p := by rw [hf]; simp
      have hy : y ∈ l.filter p := by rw [hf]; simp
      have hd := hn.filter p
      rw [hf] at hd
      rw [List.mem_filter] at hx hy
      refine ⟨x, hx.1, y, hy.1, ?_, hx.2, hy.2⟩
      rintro rfl
      simp at hd

/-- If every provider is reported once, an accepted value was returned by two different providers, and no provider
returned another one. -/
theorem C39_two_providers [DecidableEq α] {l : List (Provider × Except SingleCallError α)} (hn : (l.map (·.1)).Nodup) {v : α}
    (h : reduceWithEquality (.error (.inconsistent l)) = .ok v) :
    (∃ p q, p ≠ q ∧ (p, .ok v) ∈ l ∧ (q, .ok v) ∈ l) ∧ ∀ p w, (p, .ok w) ∈ l → w = v := by
  rcases ((C39_equality _).1 v).1 h with h | ⟨l', hl, h2, hall⟩
  · cases h
  · cases hl
    refine ⟨?_, hall⟩
    obtain ⟨⟨p, r⟩, hx, ⟨q, s⟩, hy, hne, h1, h2⟩ := two_of_countP h2 hn.of_map
    cases r with
    | error e => simp [isOk] at h1
    | ok a =>
      cases s with
      | error e => simp [isOk] at h2
      | ok b =>
        obtain rfl := hall _ _ hx
        obtain rfl := hall _ _ hy
        exact ⟨p, q, fun hpq => hne (by rw [hpq]), hx, hy⟩

/-! ## Minimum, and the first success -/

theorem foldl_min [TOrd K] (key : α → K) (l : List α) (a : α) :
    let m := l.foldl (fun m b => if TOrd.lt (key b) (key m) then b else m) a
    m ∈ a :: l ∧ ∀ b ∈ a :: l, TOrd.lt (key b) (key m) = false := by
  induction l generalizing a with
  | nil => simp [TOrd.irrefl]
  | cons x t ih =>
    dsimp only [List.foldl_cons]
    have h := ih (if TOrd.lt (key x) (key a) then x else a)
    dsimp only at h
    generalize t.foldl _ _ = m at h
    obtain ⟨hm, hmin⟩ := h
    by_cases hx : TOrd.lt (key x) (key a) = true
    · rw [if_pos hx] at hm hmin
      refine ⟨?_, ?_⟩
      · rcases List.mem_cons.1 hm with h | h
        · rw [h]; simp
        · exact List.mem_cons_of_mem _ (List.mem_cons_of_mem _ h)
      · intro b hb
        rcases List.mem_cons.1 hb with rfl | hb
        · cases hc : TOrd.lt (key b) (key m) with
          | false => rfl
          | true =>
            have := TOrd.trans _ _ _ hx hc
            rw [hmin x (by simp)] at this
            cases this
        · exact hmin b hb
    · rw [if_neg hx] at hm hmin
      refine ⟨?_, ?_⟩
      · rcases List.mem_cons.1 hm with h | h
        · rw [h]; simp
        · exact List.mem_cons_of_mem _ (List.mem_cons_of_mem _ h)
      · intro b hb
        rcases List.mem_cons.1 hb with rfl | hb
        · exact hmin b (by simp)
        · rcases List.mem_cons.1 hb with rfl | hb
          · cases hc : TOrd.lt (key b) (key m) with
            | false => rfl
            | true =>
              have ham := hmin a (by simp)
              by_cases hk : key a = key m
              · rw [← hk] at hc
                exact absurd hc hx
              · have := TOrd.trans _ _ _ hc (TOrd.lt_of_not ham hk)
                exact absurd this hx
          · exact hmin b (List.mem_cons_of_mem _ hb)

/-- The minimum reduction does not panic. A value is returned only if it is the common answer, or at least two answers were
successful, it is one of them and none has a smaller key; and if two answers were successful, some value is returned. -/
theorem C39_minimum [TOrd K] (key : α → K) (r : Reduced α) :
    ∃ o, reduceWithMinByKey key r = .ok o ∧
      (∀ v, o = .ok v → r = .ok v ∨ ∃ l, r = .error (.inconsistent l) ∧ 2 ≤ l.countP isOk ∧ (∃ p, (p, .ok v) ∈ l) ∧
        ∀ p w, (p, .ok w) ∈ l → TOrd.lt (key w) (key v) = false) ∧
      ∀ e, o = .error e → r = .error e ∧ ∀ l, e = .inconsistent l → l.countP isOk < 2 := by
  cases r with
  | ok a => exact ⟨_, rfl, fun v h => .inl h, fun e h => by cases h⟩
  | error e =>
    unfold reduceWithMinByKey
    dsimp only
    rcases twoOk_cases e with ⟨l, rfl, h2, he⟩ | ⟨h2, he⟩
    · rw [he]
      dsimp only
      have hlen := length_okResults l
      cases ho : okResults l with
      | nil => rw [ho] at hlen; simp at hlen; omega
      | cons x t =>
        refine ⟨_, rfl, ?_, fun e h => by cases h⟩
        intro v hv
        cases hv
        obtain ⟨hm, hmin⟩ := foldl_min key (t.map (·.2)) x.2
        have hmap : x.2 :: t.map (·.2) = (okResults l).map (·.2) := by rw [ho]; rfl
        rw [hmap] at hm hmin
        refine .inr ⟨l, rfl, h2, ?_, ?_⟩
        · obtain ⟨⟨p, a⟩, hp, ha⟩ := List.mem_map.1 hm
          refine ⟨p, mem_okResults.1 ?_⟩
          have ha : a = _ := ha
          rw [ha] at hp
          exact hp
        · intro p w hw
          exact hmin w (List.mem_map.2 ⟨(p, w), mem_okResults.2 hw, rfl⟩)
    · rw [he]
      refine ⟨_, rfl, fun v h => (by cases h), ?_⟩
      rintro e' h
      cases h
      exact ⟨rfl, h2⟩

/-- The reduction for sent transactions does not panic, returns the first successful answer, and an error only if no provider
was successful. -/
theorem C39_one_success (r : Reduced α) :
    ∃ o, reduceWithOnlyOneKey r = .ok o ∧
      (∀ v, o = .ok v ↔ r = .ok v ∨ ∃ l p before after, r = .error (.inconsistent l) ∧ l = before ++ (p, .ok v) :: after ∧
        ∀ x ∈ before, isOk x = false) ∧
      ∀ e, o = .error e → r = .error e ∧ ∀ l, e = .inconsistent l → ∀ x ∈ l, isOk x = false := by
  have first : ∀ l : List (Provider × Except SingleCallError α), (okResults l = [] ∧ ∀ x ∈ l, isOk x = false) ∨
      ∃ p v before after, (okResults l).head? = some (p, v) ∧ l = before ++ (p, .ok v) :: after ∧ ∀ x ∈ before, isOk x = false := by
    intro l
    induction l with
    | nil => exact .inl ⟨rfl, by simp⟩
    | cons x t ih =>
      obtain ⟨p, r⟩ := x
      cases r with
      | ok a => exact .inr ⟨p, a, [], t, rfl, rfl, by simp⟩
      | error e =>
        have ho : okResults ((p, .error e) :: t) = okResults t := rfl
        rcases ih with ⟨h1, h2⟩ | ⟨q, v, b, c, h1, h2, h3⟩
        · refine .inl ⟨by rw [ho, h1], ?_⟩
          intro y hy
          rcases List.mem_cons.1 hy with rfl | hy
          · rfl
          · exact h2 y hy
        · refine .inr ⟨q, v, (p, .error e) :: b, c, by rw [ho, h1], by rw [h2]; rfl, ?_⟩
          intro y hy
          rcases List.mem_cons.1 hy with rfl | hy
          · rfl
          · exact h3 y hy
  have unique : ∀ (l b b' a a' : List (Provider × Except SingleCallError α)) (p p' : Provider) (v v' : α), l = b ++ (p, .ok v) :: a →
      l = b' ++ (p', .ok v') :: a' → (∀ x ∈ b, isOk x = false) → (∀ x ∈ b', isOk x = false) → v = v' := by
    intro l
    induction l with
    | nil => intro b b' a a' p p' v v' h; simp at h
    | cons x t ih =>
      intro b b' a a' p p' v v' h h' hb hb'
      cases b with
      | nil =>
        simp only [List.nil_append, List.cons.injEq] at h
        cases b' with
        | nil =>
          simp only [List.nil_append, List.cons.injEq] at h'
          have := h.1.symm.trans h'.1
          simpa using (Prod.mk.inj this).2
        | cons y b' =>
          simp only [List.cons_append, List.cons.injEq] at h'
          have := hb' y (by simp)
          rw [← h'.1, h.1] at this
          cases this
      | cons z b =>
        simp only [List.cons_append, List.cons.injEq] at h
        cases b' with
        | nil =>
          simp only [List.nil_append, List.cons.injEq] at h'
          have := hb z (by simp)
          rw [← h.1, h'.1] at this
          cases this
        | cons y b' =>
          simp only [List.cons_append, List.cons.injEq] at h'
          exact ih b b' a a' p p' v v' h.2 h'.2 (fun x hx => hb x (by simp [hx])) (fun x hx => hb' x (by simp [hx]))
  cases r with
  | ok a =>
    refine ⟨_, rfl, fun v => ⟨fun h => .inl h, ?_⟩, fun e h => by cases h⟩
    rintro (h | ⟨l, _, _, _, h, _⟩)
    · exact h
    · cases h
  | error e =>
    unfold reduceWithOnlyOneKey
    dsimp only
    cases e with
    | inconsistent l =>
      unfold MultiCallError.atLeastOneOk
      dsimp only
      rcases first l with ⟨h1, h2⟩ | ⟨p, v, b, a, h1, h2, h3⟩
      · rw [h1]
        refine ⟨.error (.inconsistent l), rfl, fun v => ⟨fun h => (by cases h), ?_⟩, ?_⟩
        · rintro (h | ⟨l', q, b, a, h, h', h3⟩)
          · cases h
          · cases h
            have := h2 (q, .ok v) (by rw [h']; simp)
            cases this
        · intro e h
          cases h
          refine ⟨rfl, fun l' h => ?_⟩
          cases h
          exact h2
      · cases ho : okResults l with
        | nil => rw [ho] at h1; cases h1
        | cons x t =>
          rw [ho, List.head?_cons] at h1
          cases h1
          refine ⟨.ok v, rfl, fun w => ⟨?_, ?_⟩, fun e h => by cases h⟩
          · intro h
            cases h
            exact .inr ⟨l, p, b, a, rfl, h2, h3⟩
          · rintro (h | ⟨l', q, b', a', h, h', h3'⟩)
            · cases h
            · cases h
              rw [unique l b b' a a' p q v w h2 h' h3 h3']
    | http e =>
      refine ⟨_, rfl, fun v => ⟨fun h => (by cases h), ?_⟩, fun e h => by cases h; exact ⟨rfl, by simp⟩⟩
      rintro (h | ⟨_, _, _, _, h, _⟩) <;> cases h
    | jsonRpc c m =>
      refine ⟨_, rfl, fun v => ⟨fun h => (by cases h), ?_⟩, fun e h => by cases h; exact ⟨rfl, by simp⟩⟩
      rintro (h | ⟨_, _, _, _, h, _⟩) <;> cases h
    | evmRpcCanister t =>
      refine ⟨_, rfl, fun v => ⟨fun h => (by cases h), ?_⟩, fun e h => by cases h; exact ⟨rfl, by simp⟩⟩
      rintro (h | ⟨_, _, _, _, h, _⟩) <;> cases h

/-! ## Strict majority -/

/-- Answers with the same key are the same. -/
def Agree (key : α → K) (l : List (Provider × α)) : Prop := ∀ x ∈ l, ∀ y ∈ l, key x.2 = key y.2 → x.2 = y.2

/-- The ballots hold exactly these answers. -/
structure Votes [TOrd K] [DecidableEq K] (key : α → K) (done : List (Provider × α)) (votes : FMap K (Ballot α)) : Prop where
  sound : ∀ {k b p a}, votes.get k = some b → b.get p = some a → (p, a) ∈ done ∧ key a = k
  complete : ∀ {p a}, (p, a) ∈ done → ∃ b, votes.get (key a) = some b ∧ b.get p = some a
  nonempty : ∀ {k b}, votes.get k = some b → b.entries ≠ []

theorem getLast_entries {V : Type} [TOrd K] [DecidableEq K] {b : FMap K V} (h : b.entries ≠ []) :
    ∃ p a, b.entries.getLast? = some (p, a) ∧ b.get p = some a := by
  cases hl : b.entries.getLast? with
  | none => exact absurd (List.getLast?_eq_none_iff.1 hl) h
  | some x => exact ⟨x.1, x.2, rfl, FMap.mem_toList.1 (List.mem_of_getLast? hl)⟩

theorem addVote_spec [DecidableEq α] [TOrd K] [DecidableEq K] {key : α → K} {done : List (Provider × α)} {votes : FMap K (Ballot α)}
    (hv : Votes key done votes) (ha : Agree key done) (p : Provider) (a : α) :
    (Agree key (done ++ [(p, a)]) ∧ ∃ votes', addVote key votes p a = .ok (.ok votes') ∧ Votes key (done ++ [(p, a)]) votes') ∨
    (¬ Agree key (done ++ [(p, a)]) ∧ ∃ l, addVote key votes p a = .ok (.error (.inconsistent l))) := by
  unfold addVote
  cases hg : votes.get (key a) with
  | none =>
    left
    have hfresh : ∀ x ∈ done, key x.2 ≠ key a := by
      rintro ⟨q, c⟩ hx hk
      obtain ⟨b, hb, _⟩ := hv.complete hx
      have hk : key c = key a := hk
      rw [hk, hg] at hb
      cases hb
    refine ⟨?_, _, rfl, ?_, ?_, ?_⟩
    · intro x hx y hy hk
      rcases List.mem_append.1 hx with hx | hx <;> rcases List.mem_append.1 hy with hy | hy
      · exact ha x hx y hy hk
      · rw [List.mem_singleton] at hy; subst hy; exact absurd hk (hfresh x hx)
      · rw [List.mem_singleton] at hx; subst hx; exact absurd hk.symm (hfresh y hy)
      · rw [List.mem_singleton] at hx hy; rw [hx, hy]
    · intro k b q c hb hc
      rw [FMap.get_insert] at hb
      split at hb
      · rename_i hk
        cases hb
        rw [FMap.get_insert] at hc
        split at hc
        · rename_i hq
          cases hc
          exact ⟨by rw [hq]; simp, hk.symm⟩
        · cases hc
      · obtain ⟨h1, h2⟩ := hv.sound hb hc
        exact ⟨List.mem_append_left _ h1, h2⟩
    · intro q c hm
      rcases List.mem_append.1 hm with hm | hm
      · obtain ⟨b, hb, hc⟩ := hv.complete hm
        refine ⟨b, ?_, hc⟩
        rw [FMap.get_insert, if_neg (fun h => hfresh _ hm h)]
        exact hb
      · rw [List.mem_singleton] at hm
        cases hm
        exact ⟨_, FMap.get_insert_self _ _ _, FMap.get_insert_self _ _ _⟩
    · intro k b hb
      rw [FMap.get_insert] at hb
      split at hb
      · cases hb
        intro he
        have : (FMap.insert (∅ : Ballot α) p a).get p = some a := FMap.get_insert_self _ _ _
        have := FMap.mem_toList.2 this
        unfold FMap.toList at this
        rw [he] at this
        cases this
      · exact hv.nonempty hb
  | some b =>
    dsimp only
    obtain ⟨q, other, hlast, hq⟩ := getLast_entries (hv.nonempty hg)
    rw [hlast]
    obtain ⟨hin, hkey⟩ := hv.sound hg hq
    simp only [expect, Res.ok_bind]
    by_cases hne : a = other
    · left
      rw [if_neg (not_not.2 hne)]
      have hall : ∀ x ∈ done, key x.2 = key a → x.2 = a := fun x hx hk => by
        rw [hne]
        exact ha x hx (q, other) hin (hk.trans hkey.symm)
      refine ⟨?_, _, rfl, ?_, ?_, ?_⟩
      · intro x hx y hy hk
        rcases List.mem_append.1 hx with hx | hx <;> rcases List.mem_append.1 hy with hy | hy
        · exact ha x hx y hy hk
        · rw [List.mem_singleton] at hy; subst hy; exact hall x hx hk
        · rw [List.mem_singleton] at hx; subst hx; exact (hall y hy hk.symm).symm
        · rw [List.mem_singleton] at hx hy; rw [hx, hy]
      · intro k c q' d hb hc
        rw [FMap.get_insert] at hb
        split at hb
        · rename_i hk
          cases hb
          rw [FMap.get_insert] at hc
          split at hc
          · rename_i hq'
            cases hc
            exact ⟨by rw [hq']; simp, hk.symm⟩
          · obtain ⟨h1, h2⟩ := hv.sound hg hc
            exact ⟨List.mem_append_left _ h1, by rw [h2, hk]⟩
        · rename_i hk
          rw [FMap.get_erase, if_neg hk] at hb
          obtain ⟨h1, h2⟩ := hv.sound hb hc
          exact ⟨List.mem_append_left _ h1, h2⟩
      · intro q' c hm
        rcases List.mem_append.1 hm with hm | hm
        · by_cases hk : key c = key a
          · obtain ⟨b', hb', hc⟩ := hv.complete hm
            obtain rfl : c = a := hall _ hm hk
            refine ⟨_, FMap.get_insert_self _ _ _, ?_⟩
            rw [FMap.get_insert]
            split
            · rfl
            · rw [hg] at hb'
              cases hb'
              exact hc
          · obtain ⟨b', hb', hc⟩ := hv.complete hm
            refine ⟨b', ?_, hc⟩
            rw [FMap.get_insert, if_neg hk, FMap.get_erase, if_neg hk]
            exact hb'
        · rw [List.mem_singleton] at hm
          cases hm
          exact ⟨_, FMap.get_insert_self _ _ _, FMap.get_insert_self _ _ _⟩
      · intro k c hb
        rw [FMap.get_insert] at hb
        split at hb
        · cases hb
          intro he
          have := FMap.mem_toList.2 (FMap.get_insert_self b p a)
          unfold FMap.toList at this
          rw [he] at this
          cases this
        · rename_i hk
          rw [FMap.get_erase, if_neg hk] at hb
          exact hv.nonempty hb
    · right
      rw [if_pos hne]
      refine ⟨fun h => hne ?_, _, rfl⟩
      exact h (p, a) (by simp) (q, other) (List.mem_append_left _ hin) hkey.symm

theorem addVotes_spec [DecidableEq α] [TOrd K] [DecidableEq K] {key : α → K} (l : List (Provider × α)) {done : List (Provider × α)}
    {votes : FMap K (Ballot α)} (hv : Votes key done votes) (ha : Agree key done) :
    (Agree key (done ++ l) ∧ ∃ votes', addVotes key votes l = .ok (.ok votes') ∧ Votes key (done ++ l) votes') ∨
    (¬ Agree key (done ++ l) ∧ ∃ e, addVotes key votes l = .ok (.error (.inconsistent e))) := by
  induction l generalizing done votes with
  | nil => exact .inl ⟨by simpa using ha, votes, rfl, by simpa using hv⟩
  | cons x t ih =>
    obtain ⟨p, a⟩ := x
    unfold addVotes
    rcases addVote_spec hv ha p a with ⟨h1, v', h2, h3⟩ | ⟨h1, e, h2⟩
    · rw [h2, Res.ok_bind]
      have := ih h3 h1
      rw [List.append_assoc] at this
      exact this
    · rw [h2, Res.ok_bind]
      refine .inr ⟨fun h => h1 ?_, e, rfl⟩
      intro x hx y hy
      have hsub : ∀ x ∈ done ++ [(p, a)], x ∈ done ++ (p, a) :: t := by
        intro x hx
        simp only [List.mem_append, List.mem_cons, List.mem_singleton, List.not_mem_nil, or_false] at hx ⊢
        rcases hx with h | h
        · exact .inl h
        · exact .inr (.inl h)
      exact h x (hsub x hx) y (hsub y hy)

theorem size_eq_card [TOrd K] [DecidableEq K] {key : α → K} {l : List (Provider × Except SingleCallError α)} {votes : FMap K (Ballot α)}
    (hv : Votes key (okResults l) votes) (k : K) :
    (supporters key l k).card = match votes.get k with
      | some b => b.size
      | none => 0 := by
  cases hg : votes.get k with
  | none =>
    dsimp only
    rw [Finset.card_eq_zero]
    ext p
    rw [mem_supporters]
    simp only [Finset.notMem_empty, iff_false]
    rintro ⟨a, hm, rfl⟩
    obtain ⟨b, hb, _⟩ := hv.complete (mem_okResults.2 hm)
    rw [hg] at hb
    cases hb
  | some b =>
    dsimp only
    have : supporters key l k = b.keys.toFinset := by
      ext p
      rw [mem_supporters, List.mem_toFinset, FMap.mem_keys]
      constructor
      · rintro ⟨a, hm, rfl⟩
        obtain ⟨b', hb, hc⟩ := hv.complete (mem_okResults.2 hm)
        rw [hg] at hb
        cases hb
        exact ⟨a, hc⟩
      · rintro ⟨a, hc⟩
        obtain ⟨h1, h2⟩ := hv.sound hg hc
        exact ⟨a, mem_okResults.1 h1, h2⟩
    rw [this, List.toFinset_card_of_nodup b.keys_nodup]
    unfold FMap.keys FMap.size
    rw [List.length_map]

theorem mem_of_perm_last {γ : Type} {t : List γ} (h : 2 ≤ t.length) : ∃ r s f, t = r ++ [s, f] := by
  rcases List.eq_nil_or_concat t with rfl | ⟨r, f, rfl⟩
  · simp at h
  · rcases List.eq_nil_or_concat r with rfl | ⟨r', s, rfl⟩
    · simp at h
    · exact ⟨r', s, f, by simp⟩

theorem decideVotes_spec [TOrd K] [DecidableEq K] {key : α → K} {l : List (Provider × Except SingleCallError α)} {votes : FMap K (Ballot α)}
    (hv : Votes key (okResults l) votes) (ha : Agree key (okResults l)) (hne : okResults l ≠ []) :
    ∃ o, decideVotes votes = .ok o ∧
      (∀ v, o = .ok v ↔ (∃ p, (p, .ok v) ∈ l) ∧ ∀ k, k ≠ key v → (supporters key l k).card < (supporters key l (key v)).card) ∧
      ∀ e, o = .error e → ∃ l', e = .inconsistent l' := by
  have hsize := fun k => size_eq_card hv k
  have hpos : ∀ {k b}, votes.get k = some b → 0 < b.size := fun h => List.length_pos_iff.2 (hv.nonempty h)
  have hp := List.mergeSort_perm votes.toList fun x y => decide (x.2.size ≤ y.2.size)
  have hs : (votes.toList.mergeSort fun x y => decide (x.2.size ≤ y.2.size)).Pairwise fun x y => x.2.size ≤ y.2.size := by
    have := List.pairwise_mergeSort (le := fun x y : K × Ballot α => decide (x.2.size ≤ y.2.size))
      (fun a b c h1 h2 => by simp only [decide_eq_true_eq] at *; omega)
      (fun a b => by simp only [Bool.or_eq_true, decide_eq_true_eq]; omega) votes.toList
    simpa using this
  unfold decideVotes
  dsimp only
  generalize (votes.toList.mergeSort fun x y => decide (x.2.size ≤ y.2.size)) = t at hp hs ⊢
  have hmem : ∀ k b, (k, b) ∈ t ↔ votes.get k = some b := fun k b => by rw [hp.mem_iff]; exact FMap.mem_toList
  have hkeys : (t.map (·.1)).Nodup := (hp.map Prod.fst).nodup_iff.2 votes.keys_nodup
  -- a value that was voted for is the one of its ballot
  have hvalue : ∀ {k b p a q v}, votes.get k = some b → b.get p = some a → (q, Except.ok v) ∈ l → key v = k → v = a := by
    intro k b p a q v hb hc hm hk
    obtain ⟨h1, h2⟩ := hv.sound hb hc
    exact ha (q, v) (mem_okResults.2 hm) (p, a) h1 (hk.trans h2.symm)
  obtain ⟨⟨p₀, a₀⟩, h₀⟩ := List.exists_mem_of_ne_nil _ hne
  obtain ⟨b₀, hb₀, _⟩ := hv.complete h₀
  have h1 : 1 ≤ t.length := List.length_pos_of_mem ((hmem _ _).2 hb₀)
  by_cases hlen : t.length = 1
  · obtain ⟨⟨k, b⟩, rfl⟩ := List.length_eq_one_iff.1 hlen
    have hkb : votes.get k = some b := (hmem k b).1 (by simp)
    have honly : ∀ {k' b'}, votes.get k' = some b' → k' = k := fun h => by
      have := (hmem _ _).2 h
      simp only [List.mem_singleton, Prod.mk.injEq] at this
      exact this.1
    obtain ⟨p, a, hlast, hpa⟩ := getLast_entries (hv.nonempty hkb)
    obtain ⟨hin, hka⟩ := hv.sound hkb hpa
    refine ⟨.ok a, ?_, fun v => ?_, fun e h => by cases h⟩
    · simp only [List.length_singleton, List.getLast?_singleton, Option.bind_some, hlast, expect, Res.ok_bind]
      rfl
    · rw [Except.ok.injEq]
      constructor
      · rintro rfl
        refine ⟨⟨p, mem_okResults.1 hin⟩, fun k' hk' => ?_⟩
        rw [hsize, hsize, hka, hkb]
        cases hg : votes.get k' with
        | none => exact hpos hkb
        | some b' => exact absurd ((honly hg).trans hka.symm) hk'
      · rintro ⟨⟨q, hq⟩, _⟩
        obtain ⟨b', hb', _⟩ := hv.complete (mem_okResults.2 hq)
        exact (hvalue hkb hpa hq (honly hb')).symm
  · obtain ⟨r, s, f, rfl⟩ := mem_of_perm_last (by omega : 2 ≤ t.length)
    obtain ⟨sk, sb⟩ := s
    obtain ⟨fk, fb⟩ := f
    have hfb : votes.get fk = some fb := (hmem _ _).1 (by simp)
    have hsb : votes.get sk = some sb := (hmem _ _).1 (by simp)
    have hsf : sk ≠ fk := by
      rw [List.map_append, List.nodup_append] at hkeys
      have := hkeys.2.1
      simp at this
      exact this
    have hle : ∀ {k b}, votes.get k = some b → k ≠ fk → b.size ≤ sb.size := by
      intro k b h hk
      have hm := (hmem _ _).2 h
      rw [List.pairwise_append] at hs
      simp only [List.mem_append, List.mem_cons, List.not_mem_nil, or_false, Prod.mk.injEq] at hm
      rcases hm with hm | ⟨rfl, rfl⟩ | ⟨rfl, rfl⟩
      · exact hs.2.2 (k, b) hm (sk, sb) (by simp)
      · exact Nat.le_refl _
      · exact absurd rfl hk
    have hsfle : sb.size ≤ fb.size := by
      rw [List.pairwise_append] at hs
      have := hs.2.1
      simpa using this
    obtain ⟨p, a, hlast, hpa⟩ := getLast_entries (hv.nonempty hfb)
    obtain ⟨hin, hka⟩ := hv.sound hfb hpa
    have hl2 : ∀ n, (r ++ [(sk, sb), (fk, fb)]).length = n → ∃ m, n = m + 2 := fun n h => ⟨r.length, by rw [← h]; simp⟩
    have e1 : (r ++ [(sk, sb), (fk, fb)]).getLast? = some (fk, fb) := by simp
    have e2 : (r ++ [(sk, sb), (fk, fb)]).dropLast.getLast? = some (sk, sb) := by
      rw [show r ++ [(sk, sb), (fk, fb)] = (r ++ [(sk, sb)]) ++ [(fk, fb)] by simp, List.dropLast_concat]
      simp
    obtain ⟨m, hm⟩ := hl2 _ rfl
    rw [hm, e1, e2]
    simp only [expect, Res.ok_bind]
    -- the key of a winner
    have hwin : ∀ {q v}, (q, Except.ok v) ∈ l → (∀ k, k ≠ key v → (supporters key l k).card < (supporters key l (key v)).card) → key v = fk ∧ sb.size < fb.size := by
      intro q v hq hall
      obtain ⟨b', hb', _⟩ := hv.complete (mem_okResults.2 hq)
      by_cases hk : key v = fk
      · refine ⟨hk, ?_⟩
        have := hall sk (by rw [hk]; exact hsf)
        rw [hsize, hsize, hk, hfb, hsb] at this
        exact this
      · have := hall fk (Ne.symm hk)
        rw [hsize, hsize, hfb, hb'] at this
        dsimp only at this
        have := hle hb' hk
        omega
    by_cases hgt : fb.size > sb.size
    · rw [if_pos hgt, hlast]
      refine ⟨.ok a, rfl, fun v => ?_, fun e h => by cases h⟩
      rw [Except.ok.injEq]
      constructor
      · rintro rfl
        refine ⟨⟨p, mem_okResults.1 hin⟩, fun k' hk' => ?_⟩
        rw [hka] at hk'
        rw [hsize, hsize, hka, hfb]
        cases hg : votes.get k' with
        | none => exact hpos hfb
        | some b' => exact Nat.lt_of_le_of_lt (hle hg hk') hgt
      · rintro ⟨⟨q, hq⟩, hall⟩
        exact (hvalue hfb hpa hq (hwin hq hall).1).symm
    · rw [if_neg hgt]
      refine ⟨_, rfl, fun v => ⟨fun h => (by cases h), ?_⟩, fun e h => ?_⟩
      · rintro ⟨⟨q, hq⟩, hall⟩
        exact absurd (hwin hq hall).2 hgt
      · cases h
        exact ⟨_, rfl⟩

/-- The majority reduction does not panic. A value is returned exactly if it is the common answer, or at least two answers
were successful, answers with the same key are the same, it is one of them, and its key has strictly more supporters than every
other key. -/
theorem C39_majority [DecidableEq α] [TOrd K] [DecidableEq K] (key : α → K) (r : Reduced α) :
    ∃ o, reduceWithStrictMajorityByKey key r = .ok o ∧
      ∀ v, o = .ok v ↔ r = .ok v ∨ ∃ l, r = .error (.inconsistent l) ∧ 2 ≤ l.countP isOk ∧
        (∀ p a q b, (p, .ok a) ∈ l → (q, .ok b) ∈ l → key a = key b → a = b) ∧ (∃ p, (p, .ok v) ∈ l) ∧
        ∀ k, k ≠ key v → (supporters key l k).card < (supporters key l (key v)).card := by
  cases r with
  | ok a =>
    refine ⟨_, rfl, fun v => ⟨fun h => .inl h, ?_⟩⟩
    rintro (h | ⟨_, h, _⟩)
    · exact h
    · cases h
  | error e =>
    unfold reduceWithStrictMajorityByKey
    dsimp only
    rcases twoOk_cases e with ⟨l, rfl, h2, he⟩ | ⟨h2, he⟩
    · rw [he]
      dsimp only
      have hagree : Agree key (okResults l) ↔ ∀ p a q b, (p, .ok a) ∈ l → (q, .ok b) ∈ l → key a = key b → a = b :=
        ⟨fun h p a q b h1 h2 hk => h (p, a) (mem_okResults.2 h1) (q, b) (mem_okResults.2 h2) hk,
          fun h x hx y hy hk => h x.1 x.2 y.1 y.2 (mem_okResults.1 hx) (mem_okResults.1 hy) hk⟩
      have h0 : Votes key [] (∅ : FMap K (Ballot α)) :=
        ⟨fun h => (by cases h), fun h => (by cases h), fun h => (by cases h)⟩
      have hne : okResults l ≠ [] := by
        intro h
        have := length_okResults l
        rw [h] at this
        simp at this
        omega
      rcases addVotes_spec (okResults l) h0 (fun x hx => by cases hx) with ⟨h1, votes, h3, h4⟩ | ⟨h1, e, h3⟩
      · rw [h3, Res.ok_bind]
        rw [List.nil_append] at h1 h4
        obtain ⟨o, ho, hiff, _⟩ := decideVotes_spec h4 h1 hne
        refine ⟨o, ho, fun v => ?_⟩
        rw [hiff v]
        constructor
        · rintro ⟨h5, h6⟩
          exact .inr ⟨l, rfl, h2, hagree.1 h1, h5, h6⟩
        · rintro (h | ⟨l', h, _, _, h5, h6⟩)
          · cases h
          · cases h
            exact ⟨h5, h6⟩
      · rw [h3, Res.ok_bind]
        rw [List.nil_append] at h1
        refine ⟨_, rfl, fun v => ⟨fun h => (by cases h), ?_⟩⟩
        rintro (h | ⟨l', h, _, h5, _⟩)
        · cases h
        · cases h
          exact absurd (hagree.2 h5) h1
    · rw [he]
      refine ⟨_, rfl, fun v => ⟨fun h => (by cases h), ?_⟩⟩
      rintro (h | ⟨l, h, h3, _⟩)
      · cases h
      · cases h
        have := h2 l rfl
        omega

/-! ## The calls of the minter -/

/-- The providers agree on a value: it is the common answer, or at least two were successful and all successful ones
returned it. -/
def Agreed (r : MultiRpcResult α) (v : α) : Prop :=
  r = .consistent (.ok v) ∨
  ∃ l, r = .inconsistent l ∧ 2 ≤ l.countP (fun x => x.2.isOk) ∧ ∀ p w, (p, .ok w) ∈ l → w = v

theorem fromMultiResult_ok {r : MultiRpcResult α} {v : α} : fromMultiResult r = .ok v ↔ r = .consistent (.ok v) := by
  cases r with
  | consistent r =>
    cases r with
    | ok a => simp [fromMultiResult]
    | error e => cases e <;> simp [fromMultiResult]
  | inconsistent l => simp [fromMultiResult]

/-- The entries of a report as the minter keeps them. -/
def convert (x : Provider × Except RpcError α) : Provider × Except SingleCallError α :=
  (x.1, match x.2 with
    | .ok a => .ok a
    | .error e => .error (.ofRpcError e))

theorem fromMultiResult_inconsistent {r : MultiRpcResult α} {l : List (Provider × Except SingleCallError α)} :
    fromMultiResult r = .error (.inconsistent l) ↔ ∃ l', r = .inconsistent l' ∧ l = l'.map convert := by
  cases r with
  | consistent r =>
    cases r with
    | ok a => simp [fromMultiResult]
    | error e => cases e <;> simp [fromMultiResult]
  | inconsistent l' =>
    unfold fromMultiResult
    rw [Except.error.injEq, MultiCallError.inconsistent.injEq]
    constructor
    · intro h
      exact ⟨l', rfl, h.symm⟩
    · rintro ⟨l'', h, rfl⟩
      cases h
      rfl

theorem mem_convert {l : List (Provider × Except RpcError α)} {p : Provider} {a : α} : (p, .ok a) ∈ l.map convert ↔ (p, .ok a) ∈ l := by
  rw [List.mem_map]
  constructor
  · rintro ⟨⟨q, r⟩, hm, h⟩
    cases r with
    | ok b =>
      simp only [convert, Prod.mk.injEq, Except.ok.injEq] at h
      obtain ⟨rfl, rfl⟩ := h
      exact hm
    | error e => simp [convert] at h
  · intro h
    exact ⟨_, h, rfl⟩

theorem countP_convert (l : List (Provider × Except RpcError α)) : (l.map convert).countP isOk = l.countP fun x => x.2.isOk := by
  rw [List.countP_map]
  congr 1
  funext x
  obtain ⟨p, r⟩ := x
  cases r <;> rfl

theorem equality_agreed [DecidableEq α] {r : MultiRpcResult α} {v : α} : reduceWithEquality (fromMultiResult r) = .ok v ↔ Agreed r v := by
  rw [(C39_equality _).1 v, fromMultiResult_ok]
  unfold Agreed
  constructor
  · rintro (h | ⟨l, h1, h2, h3⟩)
    · exact .inl h
    · obtain ⟨l', rfl, rfl⟩ := fromMultiResult_inconsistent.1 h1
      rw [countP_convert] at h2
      exact .inr ⟨l', rfl, h2, fun p w hw => h3 p w (mem_convert.2 hw)⟩
  · rintro (h | ⟨l, h1, h2, h3⟩)
    · exact .inl h
    · rw [← countP_convert] at h2
      exact .inr ⟨_, fromMultiResult_inconsistent.2 ⟨l, h1, rfl⟩, h2, fun p w hw => h3 p w (mem_convert.1 hw)⟩

theorem mapReduce_ok {f : α → Except String β} {r : Reduced α} {b : β} : mapReduce f r = .ok b ↔ ∃ a, r = .ok a ∧ f a = .ok b := by
  cases r with
  | ok a =>
    unfold mapReduce
    dsimp only
    cases h : f a with
    | ok b' => simp [h]
    | error t => simp [h]
  | error e => cases e <;> simp [mapReduce]

theorem mapReduce_id (r : Reduced α) : mapReduce (fun a => Except.ok a) r = r := by
  cases r with
  | ok a => rfl
  | error e =>
    cases e with
    | inconsistent l =>
      unfold mapReduce
      dsimp only
      congr 2
      conv_rhs => rw [← List.map_id l]
      congr 1
      funext x
      obtain ⟨p, r⟩ := x
      cases r <;> rfl
    | _ => rfl

/-- `get_logs` returns logs exactly if the providers agree on them. -/
theorem C39_logs {r : MultiRpcResult (List LogEntry)} {l : List LogEntry} : logs r = .ok l ↔ Agreed r l := by
  unfold logs
  rw [mapReduce_ok]
  constructor
  · rintro ⟨a, h, h'⟩
    cases h'
    exact equality_agreed.1 h
  · intro h
    exact ⟨l, equality_agreed.2 h, rfl⟩

/-- `get_transaction_receipt` returns a receipt exactly if the providers agree on one with these fields, whose status is
1 for success and 0 for failure. -/
theorem C39_receipt {r : MultiRpcResult (Option EvmReceipt)} {x : Receipt} :
    receipt r = .ok (some x) ↔ ∃ e, Agreed r (some e) ∧ x.blockHash = e.blockHash ∧ x.blockNumber = e.blockNumber ∧
      x.effectiveGasPrice = e.effectiveGasPrice ∧ x.gasUsed = e.gasUsed ∧ x.transactionHash = e.transactionHash ∧
      (e.status = some 1 ∧ x.status = .success ∨ e.status = some 0 ∧ x.status = .failure) := by
  unfold receipt
  rw [mapReduce_ok]
  simp only [equality_agreed]
  constructor
  · rintro ⟨a, ha, h⟩
    cases a with
    | none => cases h
    | some e =>
      refine ⟨e, ha, ?_⟩
      unfold mapReceipt at h
      dsimp only at h
      cases hs : e.status with
      | none => rw [hs] at h; cases h
      | some n =>
        rw [hs] at h
        simp only [Option.bind_some] at h
        by_cases hn : n < 256
        · rw [if_pos hn] at h
          match n with
          | 0 => cases h; exact ⟨rfl, rfl, rfl, rfl, rfl, .inr ⟨rfl, rfl⟩⟩
          | 1 => cases h; exact ⟨rfl, rfl, rfl, rfl, rfl, .inl ⟨rfl, rfl⟩⟩
          | n + 2 => cases h
        · rw [if_neg hn] at h
          cases h
  · rintro ⟨e, ha, h1, h2, h3, h4, h5, h6⟩
    refine ⟨some e, ha, ?_⟩
    obtain ⟨x1, x2, x3, x4, x5, x6⟩ := x
    simp only at h1 h2 h3 h4 h5 h6
    subst h1 h2 h3 h4 h5
    unfold mapReceipt
    dsimp only
    rcases h6 with ⟨h6, rfl⟩ | ⟨h6, rfl⟩ <;> rw [h6] <;> rfl

/-- `get_transaction_receipt` answers that there is none exactly if the providers agree on this. -/
theorem C39_no_receipt {r : MultiRpcResult (Option EvmReceipt)} : receipt r = .ok none ↔ Agreed r none := by
  unfold receipt
  rw [mapReduce_ok]
  simp only [equality_agreed]
  constructor
  · rintro ⟨a, ha, h⟩
    cases a with
    | none => exact ha
    | some e =>
      unfold mapReceipt at h
      dsimp only at h
      split at h <;> cases h
  · intro h
    exact ⟨none, h, rfl⟩

/-- `get_block_by_number` does not panic if all reported blocks have a base fee; then it returns a number exactly if the
providers agree on a block with this number. -/
theorem C39_block {r : MultiRpcResult EvmBlock}
    (hfee : (∀ b, r = .consistent (.ok b) → b.baseFeePerGas.isSome) ∧ ∀ l, r = .inconsistent l → ∀ p b, (p, .ok b) ∈ l → b.baseFeePerGas.isSome) :
    ∃ o, blockNumber r = .ok o ∧ ∀ n, o = .ok n ↔ ∃ b, Agreed r b ∧ n = b.number := by
  unfold blockNumber
  dsimp only
  rw [if_pos]
  · refine ⟨_, rfl, fun n => ?_⟩
    rw [mapReduce_ok]
    simp only [equality_agreed, Except.ok.injEq]
    constructor
    · rintro ⟨b, h1, h2⟩; exact ⟨b, h1, h2.symm⟩
    · rintro ⟨b, h1, h2⟩; exact ⟨b, h1, h2.symm⟩
  · cases he : reduceWithEquality (fromMultiResult r) with
    | ok b =>
      simp only [List.all_cons, List.all_nil, Bool.and_true]
      rcases equality_agreed.1 he with h | ⟨l, h, h2, h3⟩
      · exact hfee.1 b h
      · obtain ⟨x, hx, hok⟩ := List.countP_pos_iff.1 (by omega : 0 < l.countP fun x => x.2.isOk)
        obtain ⟨p, s⟩ := x
        cases s with
        | error e => cases hok
        | ok b' =>
          rw [← h3 p b' hx]
          exact hfee.2 l h p b' hx
    | error e =>
      have hr := (C39_equality _).2 e he
      cases e with
      | inconsistent l =>
        obtain ⟨l', rfl, rfl⟩ := fromMultiResult_inconsistent.1 hr
        dsimp only
        rw [List.all_eq_true]
        intro b hb
        obtain ⟨⟨p, b'⟩, hp, rfl⟩ := List.mem_map.1 hb
        exact hfee.2 l' rfl p b' (mem_convert.1 (mem_okResults.1 hp))
      | _ => rfl

/-- `get_finalized_transaction_count` returns a number exactly if the providers agree on it. -/
theorem C39_finalized_count {r : MultiRpcResult TransactionCount} {n : TransactionCount} : finalizedCount r = .ok n ↔ Agreed r n := by
  unfold finalizedCount
  rw [mapReduce_id, equality_agreed]

/-- `get_latest_transaction_count` does not panic; it returns the common answer or the smallest of at least two. -/
theorem C39_latest_count {r : MultiRpcResult TransactionCount} :
    ∃ o, latestCount r = .ok o ∧ ∀ n, o = .ok n → r = .consistent (.ok n) ∨
      ∃ l, r = .inconsistent l ∧ 2 ≤ l.countP (fun x => x.2.isOk) ∧ (∃ p, (p, .ok n) ∈ l) ∧ ∀ p m, (p, .ok m) ∈ l → n ≤ m := by
  unfold latestCount
  rw [mapReduce_id]
  obtain ⟨o, ho, h, _⟩ := C39_minimum (fun n : Nat => n) (fromMultiResult r)
  refine ⟨o, ho, fun n hn => ?_⟩
  rcases h n hn with h | ⟨l, h1, h2, ⟨p, h3⟩, h4⟩
  · exact .inl (fromMultiResult_ok.1 h)
  · obtain ⟨l', rfl, rfl⟩ := fromMultiResult_inconsistent.1 h1
    rw [countP_convert] at h2
    refine .inr ⟨l', rfl, h2, ⟨p, mem_convert.1 h3⟩, fun q m hm => ?_⟩
    have := h4 q m (mem_convert.2 hm)
    simpa [TOrd.lt] using this

/-- `fee_history` does not panic. It returns the common answer, or a history of one of at least two providers; providers with the
same oldest block gave the same history, and no other oldest block is as frequent. -/
theorem C39_fee_history {r : MultiRpcResult (Option FeeHistory)} :
    ∃ o, feeHistory r = .ok o ∧ ∀ h, o = .ok h → r = .consistent (.ok (some h)) ∨
      ∃ l, r = .inconsistent l ∧ (∃ p, (p, .ok (some h)) ∈ l) ∧
        (∀ p h', (p, .ok (some h')) ∈ l → h'.oldestBlock = h.oldestBlock → h' = h) ∧
        ∀ n, n ≠ h.oldestBlock → ((l.filter fun x => match x.2 with
            | .ok (some h') => decide (h'.oldestBlock = n)
            | _ => false).map (·.1)).toFinset.card <
          ((l.filter fun x => match x.2 with
            | .ok (some h') => decide (h'.oldestBlock = h.oldestBlock)
            | _ => false).map (·.1)).toFinset.card := by
  unfold feeHistory
  obtain ⟨o, ho, hiff⟩ := C39_majority (·.oldestBlock) (mapReduce (fun h : Option FeeHistory => match h with
      | some h => .ok h
      | none => .error "No fee history available") (fromMultiResult r))
  refine ⟨o, ho, fun h hh => ?_⟩
  rcases (hiff h).1 hh with hr | ⟨l, h1, h2, h3, ⟨p, h4⟩, h5⟩
  · left
    obtain ⟨a, ha, hb⟩ := mapReduce_ok.1 hr
    cases a with
    | none => cases hb
    | some a => cases hb; exact fromMultiResult_ok.1 ha
  · right
    cases hf : fromMultiResult r with
    | ok a => rw [hf] at h1; cases a <;> cases h1
    | error e =>
      rw [hf] at h1
      cases e with
      | inconsistent l' =>
        obtain ⟨l'', rfl, rfl⟩ := fromMultiResult_inconsistent.1 hf
        simp only [mapReduce, Except.error.injEq, MultiCallError.inconsistent.injEq] at h1
        have hmem : ∀ p h', (p, Except.ok h') ∈ l ↔ (p, .ok (some h')) ∈ l'' := by
          intro p h'
          rw [← h1, List.mem_map, ← mem_convert]
          constructor
          · rintro ⟨⟨q, s⟩, hm, he⟩
            cases s with
            | error e => simp at he
            | ok a =>
              cases a with
              | none => simp at he
              | some a =>
                simp only [Prod.mk.injEq, Except.ok.injEq] at he
                obtain ⟨rfl, rfl⟩ := he
                exact hm
          · intro hm
            exact ⟨_, hm, rfl⟩
        have hcard : ∀ n, supporters (·.oldestBlock) l n = ((l''.filter fun x => match x.2 with
            | .ok (some h') => decide (h'.oldestBlock = n)
            | _ => false).map (·.1)).toFinset := by
          intro n
          ext p
          rw [mem_supporters, List.mem_toFinset, List.mem_map]
          constructor
          · rintro ⟨h', hm, rfl⟩
            exact ⟨_, List.mem_filter.2 ⟨(hmem p h').1 hm, by simp⟩, rfl⟩
          · rintro ⟨⟨q, s⟩, hm, rfl⟩
            rw [List.mem_filter] at hm
            obtain ⟨hm, hd⟩ := hm
            cases s with
            | error e => cases hd
            | ok a =>
              cases a with
              | none => cases hd
              | some h' => exact ⟨h', (hmem q h').2 hm, by simpa using hd⟩
        refine ⟨l'', rfl, ⟨p, (hmem p h).1 h4⟩, fun q h' hq he => h3 q h' p h ((hmem q h').2 hq) h4 he, fun n hn => ?_⟩
        have := h5 n hn
        rw [hcard, hcard] at this
        exact this
      | _ => cases h1

/-- What an error that all providers share is turned into, as a relation of its own: HTTP outcall errors and JSON-RPC errors
keep their kind and all their contents, the other two kinds are reported as errors of the RPC canister. -/
inductive SharedError : RpcError → MultiCallError α → Prop
  | provider (e : ProviderError) : SharedError (.provider e) (.evmRpcCanister e.text)
  | http (e : HttpError) : SharedError (.http e) (.http e)
  | jsonRpc (code : Int) (message : String) : SharedError (.jsonRpc code message) (.jsonRpc code message)
  | validation (text : String) : SharedError (.validation text) (.evmRpcCanister text)

/-- An error that all providers share comes out of each of the seven calls with its kind, its code and its message; no call
turns it into an answer, and none panics on it. -/
theorem C39_shared_error (e : RpcError) :
    (∃ m, blockNumber (.consistent (.error e)) = .ok (.error m) ∧ SharedError e m) ∧
    (∃ m, logs (.consistent (.error e)) = .error m ∧ SharedError e m) ∧
    (∃ m, receipt (.consistent (.error e)) = .error m ∧ SharedError e m) ∧
    (∃ m, feeHistory (.consistent (.error e)) = .ok (.error m) ∧ SharedError e m) ∧
    (∃ m, send (.consistent (.error e)) = .ok (.error m) ∧ SharedError e m) ∧
    (∃ m, finalizedCount (.consistent (.error e)) = .error m ∧ SharedError e m) ∧
    ∃ m, latestCount (.consistent (.error e)) = .ok (.error m) ∧ SharedError e m := by
  refine ⟨?_, ?_, ?_, ?_, ?_, ?_, ?_⟩
  all_goals cases e with
    | provider e => exact ⟨_, rfl, .provider e⟩
    | http e => exact ⟨_, rfl, .http e⟩
    | jsonRpc c t => exact ⟨_, rfl, .jsonRpc c t⟩
    | validation t => exact ⟨_, rfl, .validation t⟩

end Rpc

namespace Example
open Rpc

/-- Two of three providers agree and the third fails: accepted by equality. One of the three differs: refused by equality,
accepted by majority. The minimum takes the smallest. -/
theorem C39_example :
    finalizedCount (.inconsistent [(0, .ok 7), (1, .error (.validation "")), (2, .ok 7)]) = .ok 7 ∧
    (∀ n, finalizedCount (.inconsistent [(0, .ok 7), (1, .ok 8), (2, .ok 7)]) ≠ .ok n) ∧
    (∀ n, finalizedCount (.inconsistent [(0, .ok 7), (1, .error (.validation "")), (2, .error (.validation ""))]) ≠ .ok n) ∧
    latestCount (.inconsistent [(0, .ok 7), (1, .ok 5), (2, .ok 6)]) = .ok (.ok 5) ∧
    reduceWithStrictMajorityByKey (fun n : Nat => n) (.error (.inconsistent [(0, .ok 7), (1, .ok 8), (2, .ok 7)])) = .ok (.ok 7) ∧
    send (.inconsistent [(0, .error (.jsonRpc (-32000) "already known")), (1, .ok .ok)]) = .ok (.ok .ok) ∧
    blockNumber (.consistent (.ok ⟨5, none, 0⟩)) ≠ .ok (.ok 5) := by
  refine ⟨by rfl, ?_, ?_, by rfl, ?_, by rfl, ?_⟩
  · intro n h
    rcases C39_finalized_count.1 h with h | ⟨l, h, h2, h3⟩
    · cases h
    · cases h
      have a := h3 0 7 (by simp)
      have b := h3 1 8 (by simp)
      exact absurd (b.trans a.symm) (by decide)
  · intro n h
    rcases C39_finalized_count.1 h with h | ⟨l, h, h2, h3⟩
    · cases h
    · cases h
      revert h2
      decide
  · obtain ⟨o, ho, hiff⟩ := C39_majority (fun n : Nat => n) (.error (.inconsistent [(0, .ok 7), (1, .ok 8), (2, .ok 7)]))
    rw [ho]
    congr 1
    refine (hiff 7).2 (.inr ⟨_, rfl, by decide, fun p a q b _ _ h => h, ⟨0, by simp⟩, fun k hk => ?_⟩)
    have h7 : (supporters (fun n : Nat => n) [(0, .ok 7), (1, .ok 8), (2, .ok 7)] 7).card = 2 := by decide
    rw [h7]
    by_cases h8 : k = 8
    · subst h8; decide
    · have : supporters (fun n : Nat => n) [(0, .ok 7), (1, .ok 8), (2, .ok 7)] k = ∅ := by
        ext p
        rw [mem_supporters]
        simp only [Finset.notMem_empty, iff_false]
        rintro ⟨a, hm, rfl⟩
        simp at hm
        rcases hm with ⟨_, rfl⟩ | ⟨_, rfl⟩ | ⟨_, rfl⟩
        · exact hk rfl
        · exact h8 rfl
        · exact hk rfl
      rw [this]
      decide
  · intro h
    cases h

end Example
end EvmMinter
