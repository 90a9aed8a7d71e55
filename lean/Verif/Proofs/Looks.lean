import Verif.Proofs.Reader
/-
How often the readers of Model/Reader.lean look at a position.
-/
namespace Verif
open Reader

/-- The cursor that comes with an outcome. -/
def endOf {α : Type} (pos : α → Nat) : Res α → Option Nat
  | .ok a => some (pos a)
  | _ => none

/-- The cursor that a decoder returns. -/
def endD : DR → Option Nat
  | (_, .ok c) => some c
  | _ => none

/-- The reader `x` looks at `c` at most `k` times, at later positions at most `m` times, and at no earlier ones. If it succeeds, it stops behind `c`, and looks
at most `j` times at the position where it stops and not beyond. -/
structure Looks {α : Type} (fin : α → Option Nat) (b : Bytes) (j k m c : Nat) (x : Reader α) : Prop where
  few : ∀ i, (x.seen b).count i ≤ if i = c then k else m
  low : ∀ i ∈ x.seen b, c ≤ i
  high : ∀ e, fin (x.outcome b) = some e → c < e ∧ (x.seen b).count e ≤ j ∧ ∀ i ∈ x.seen b, i ≤ e

section Rules
variable {α β : Type} {b : Bytes} {j j' k k' m m' c : Nat}

theorem count_zero {l : List Nat} {i : Nat} (h : i ∉ l) : l.count i = 0 := List.count_eq_zero.2 h

theorem Looks.weaken {fin : α → Option Nat} {x : Reader α} (h : Looks fin b j k m c x) (hj : j ≤ j') (hk : k ≤ k') (hm : m ≤ m') : Looks fin b j' k' m' c x where
  few i := by have := h.few i; split <;> simp_all <;> omega
  low := h.low
  high e he := by have := h.high e he; exact ⟨this.1, by omega, this.2.2⟩

/-- Starting further on. -/
theorem Looks.ahead {fin : α → Option Nat} {x : Reader α} {c' : Nat} (h : Looks fin b j k m c' x) (hc : c < c') (hk : k ≤ m) (k' : Nat) : Looks fin b j k' m c x where
  few i := by
    have := h.few i
    split
    · rename_i hi
      have : i ∉ x.seen b := fun hm => by have := h.low i hm; omega
      rw [count_zero this]; omega
    · split at this <;> omega
  low i hi := by have := h.low i hi; omega
  high e he := by have := h.high e he; exact ⟨by omega, this.2⟩

theorem Looks.fail {fin : α → Option Nat} {x : Reader α} (hs : x.seen b = []) (hf : fin (x.outcome b) = none) : Looks fin b j k m c x where
  few i := by simp [hs]
  low i hi := by simp [hs] at hi
  high e he := by simp [hf] at he

theorem Looks.ret {fin : α → Option Nat} {a : α} {e : Nat} (ha : fin a = some e) (hc : c < e) : Looks fin b j k m c (done a) where
  few i := by simp [seen]
  low i hi := by simp [seen] at hi
  high e' he := by
    simp only [outcome, ha, Option.some.injEq] at he
    subst he
    exact ⟨hc, by simp [seen], by simp [seen]⟩

theorem Looks.ite {fin : α → Option Nat} {p : Prop} {_ : Decidable p} {x y : Reader α} (hx : p → Looks fin b j k m c x) (hy : ¬ p → Looks fin b j k m c y) :
    Looks fin b j k m c (if p then x else y) := by
  split
  · exact hx ‹_›
  · exact hy ‹_›

/-- One reader after another. -/
theorem Looks.seq {fin : α → Option Nat} {fin' : β → Option Nat} {x : Reader α} {f : α → Reader β} (hx : Looks fin b j k m c x)
    (hf : ∀ e, fin (x.outcome b) = some e → Looks fin' b j' k' m e (f (x.outcome b))) (hk : j + k' ≤ m)
    (hn : fin (x.outcome b) = none → (f (x.outcome b)).seen b = [] ∧ fin' ((f (x.outcome b)).outcome b) = none) : Looks fin' b j' k m c (x.bind f) := by
  cases he : fin (x.outcome b) with
  | none =>
    obtain ⟨h1, h2⟩ := hn he
    exact ⟨fun i => by rw [seen_bind, h1, List.append_nil]; exact hx.few i, fun i hi => hx.low i (by simpa [seen_bind, h1] using hi),
      fun e he => by rw [outcome_bind, h2] at he; cases he⟩
  | some e =>
    have h2 := hf e he
    obtain ⟨h3, h4, h5⟩ := hx.high e he
    refine ⟨fun i => ?_, fun i hi => ?_, fun e' he' => ?_⟩
    · rw [seen_bind, List.count_append]
      have a1 := hx.few i
      have a2 := h2.few i
      by_cases h6 : i = e
      · subst h6
        rw [if_pos rfl] at a2
        rw [if_neg (by omega)]
        omega
      · rw [if_neg h6] at a2
        by_cases h7 : i < e
        · have : i ∉ (f (x.outcome b)).seen b := fun hm => by have := h2.low i hm; omega
          rw [count_zero this]
          omega
        · have : i ∉ x.seen b := fun hm => by have := h5 i hm; omega
          rw [count_zero this, if_neg (by omega)]
          omega
    · rw [seen_bind, List.mem_append] at hi
      rcases hi with hi | hi
      · exact hx.low i hi
      · have := h2.low i hi; omega
    · rw [outcome_bind] at he'
      obtain ⟨g1, g2, g3⟩ := h2.high e' he'
      refine ⟨by omega, ?_, fun i hi => ?_⟩
      · rw [seen_bind, List.count_append]
        have : e' ∉ x.seen b := fun hm => by have := h5 e' hm; omega
        rw [count_zero this]; omega
      · rw [seen_bind, List.mem_append] at hi
        rcases hi with hi | hi
        · have := h5 i hi; omega
        · exact g3 i hi

theorem Looks.andThen {pos : α → Nat} {pos' : β → Nat} {x : Reader (Res α)} {f : α → Reader (Res β)} (hx : Looks (endOf pos) b j k m c x)
    (hf : ∀ a, x.outcome b = .ok a → Looks (endOf pos') b j' k' m (pos a) (f a)) (hk : j + k' ≤ m) : Looks (endOf pos') b j' k m c (x.andThen f) := by
  refine hx.seq (k' := k') ?_ hk ?_
  · intro e he
    cases hr : x.outcome b with
    | ok a => rw [hr] at he; cases he; exact hf a hr
    | _ => rw [hr] at he; cases he
  · intro he
    cases hr : x.outcome b with
    | ok a => rw [hr] at he; cases he
    | _ => exact ⟨rfl, rfl⟩

theorem Looks.onOk {pos : α → Nat} {rv : Val} {x : Reader (Res α)} {f : α → Reader DR} (hx : Looks (endOf pos) b j k m c x)
    (hf : ∀ a, x.outcome b = .ok a → Looks endD b j' k' m (pos a) (f a)) (hk : j + k' ≤ m) : Looks endD b j' k m c (x.onOk rv f) := by
  refine hx.seq (k' := k') ?_ hk ?_
  · intro e he
    cases hr : x.outcome b with
    | ok a => rw [hr] at he; cases he; exact hf a hr
    | _ => rw [hr] at he; cases he
  · intro he
    cases hr : x.outcome b with
    | ok a => rw [hr] at he; cases he
    | _ => exact ⟨rfl, rfl⟩

/-- After a decoder. -/
theorem Looks.bindD {x : Reader DR} {f : DR → Reader DR} (hx : Looks endD b j k m c x)
    (hf : ∀ v e, x.outcome b = (v, .ok e) → Looks endD b j' k' m e (f (v, .ok e))) (hk : j + k' ≤ m)
    (hn : ∀ v r, endD (v, r) = none → (f (v, r)).seen b = [] ∧ endD ((f (v, r)).outcome b) = none) : Looks endD b j' k m c (x.bind f) := by
  refine hx.seq (k' := k') ?_ hk ?_
  · intro e he
    rcases hr : x.outcome b with ⟨v, r⟩
    rw [hr] at he
    cases r with
    | ok a => cases he; exact hf v _ hr
    | _ => cases he
  · intro he
    rcases hr : x.outcome b with ⟨v, r⟩
    rw [hr] at he
    exact hn v r he

/-- The outcome of a decoder is changed, its cursor is not. -/
theorem Looks.mapD {x : Reader α} {fin : α → Option Nat} {g : α → β} {fin' : β → Option Nat} (hx : Looks fin b j k m c x)
    (hg : ∀ a e, fin' (g a) = some e → fin a = some e) : Looks fin' b j k m c (x.bind fun a => done (g a)) where
  few i := by rw [seen_bind]; simpa [seen] using hx.few i
  low i hi := by rw [seen_bind] at hi; exact hx.low i (by simpa [seen] using hi)
  high e he := by
    rw [outcome_bind] at he
    rw [seen_bind]
    simpa [seen] using hx.high e (hg _ _ he)

theorem seen_byte {i : Nat} : (byte i).seen b = if i < b.length then [i] else [] := by
  unfold byte
  simp only [seen]
  by_cases h : i < b.length
  · rw [if_pos h, if_pos h, List.getElem?_eq_getElem h]
    rfl
  · rw [if_neg h, if_neg h, List.getElem?_eq_none (by omega)]
    rfl

theorem idx_ok {i : Nat} (h : i < b.length) : ∃ y, idx b i = .ok y := by
  unfold idx
  rw [List.getElem?_eq_getElem h]
  exact ⟨_, rfl⟩

theorem idx_none {i : Nat} (h : ¬ i < b.length) : idx b i = .panic .index := by
  unfold idx
  rw [List.getElem?_eq_none (by omega)]

/-- One more look at `i`, before everything else. -/
theorem Looks.cons {fin : α → Option Nat} {x y : Reader α} {i : Nat} (h : Looks fin b j k m c x) (hc : c ≤ i) (hs : y.seen b = i :: x.seen b)
    (ho : y.outcome b = x.outcome b) (hi : (x.seen b).count i < if i = c then k' else m) (hk : k ≤ k') (he : ∀ e, fin (x.outcome b) = some e → i < e) :
    Looks fin b j k' m c y where
  few i' := by
    rw [hs, List.count_cons]
    have := h.few i'
    by_cases h1 : i = i'
    · subst h1
      rw [if_pos (by simp)]
      exact hi
    · simp only [beq_iff_eq, h1, if_false]
      split <;> simp_all <;> omega
  low i' hi' := by
    rw [hs] at hi'
    rcases List.mem_cons.1 hi' with rfl | hi'
    · exact hc
    · exact h.low _ hi'
  high e h' := by
    rw [ho] at h'
    have := he e h'
    obtain ⟨h1, h2, h3⟩ := h.high e h'
    refine ⟨h1, ?_, fun i' hi' => ?_⟩
    · rw [hs, List.count_cons, if_neg (by simp; omega)]
      exact h2
    · rw [hs] at hi'
      rcases List.mem_cons.1 hi' with rfl | hi'
      · omega
      · exact h3 _ hi'

theorem Looks.byteThen {pos' : β → Nat} {f : Byte → Reader (Res β)} (hf : ∀ y, idx b c = .ok y → Looks (endOf pos') b j k m c (f y)) :
    Looks (endOf pos') b j (k + 1) m c ((byte c).andThen f) := by
  by_cases h : c < b.length
  · obtain ⟨y, hy⟩ := idx_ok h
    have h1 := hf y hy
    refine h1.cons (Nat.le_refl c) ?_ ?_ ?_ (by omega) fun e he => (h1.high e he).1
    · unfold Reader.andThen
      rw [seen_bind, seen_byte, if_pos h, outcome_byte, hy]
      rfl
    · rw [outcome_andThen, outcome_byte, hy]
      rfl
    · have := h1.few c
      rw [if_pos rfl] at this ⊢
      omega
  · refine .fail ?_ ?_
    · unfold Reader.andThen
      rw [seen_bind, seen_byte, if_neg h, outcome_byte, idx_none h]
      rfl
    · rw [outcome_andThen, outcome_byte, idx_none h]
      rfl

theorem Looks.byteOk {rv : Val} {f : Byte → Reader DR} (hf : ∀ y, idx b c = .ok y → Looks endD b j k m c (f y)) :
    Looks endD b j (k + 1) m c ((byte c).onOk rv f) := by
  by_cases h : c < b.length
  · obtain ⟨y, hy⟩ := idx_ok h
    have h1 := hf y hy
    refine h1.cons (Nat.le_refl c) ?_ ?_ ?_ (by omega) fun e he => (h1.high e he).1
    · unfold Reader.onOk
      rw [seen_bind, seen_byte, if_pos h, outcome_byte, hy]
      rfl
    · rw [outcome_onOk, outcome_byte, hy]
      rfl
    · have := h1.few c
      rw [if_pos rfl] at this ⊢
      omega
  · refine .fail ?_ ?_
    · unfold Reader.onOk
      rw [seen_bind, seen_byte, if_neg h, outcome_byte, idx_none h]
      rfl
    · rw [outcome_onOk, outcome_byte, idx_none h]
      rfl

/-- A look ahead at position `i`. -/
theorem Looks.peek {rv : Val} {f : Byte → Reader DR} {i : Nat} (hc : c < i) (hf : ∀ y, idx b i = .ok y → Looks endD b j k m c (f y))
    (hi : ∀ y, idx b i = .ok y → ((f y).seen b).count i < m ∧ ∀ e, endD ((f y).outcome b) = some e → i < e) :
    Looks endD b j k m c ((byte i).onOk rv f) := by
  by_cases h : i < b.length
  · obtain ⟨y, hy⟩ := idx_ok h
    have h1 := hf y hy
    refine h1.cons (Nat.le_of_lt hc) ?_ ?_ ?_ (Nat.le_refl k) (hi y hy).2
    · unfold Reader.onOk
      rw [seen_bind, seen_byte, if_pos h, outcome_byte, hy]
      rfl
    · rw [outcome_onOk, outcome_byte, hy]
      rfl
    · rw [if_neg (by omega)]
      exact (hi y hy).1
  · refine .fail ?_ ?_
    · unfold Reader.onOk
      rw [seen_bind, seen_byte, if_neg h, outcome_byte, idx_none h]
      rfl
    · rw [outcome_onOk, outcome_byte, idx_none h]
      rfl

theorem seen_scan {p : Byte → Bool} : ∀ {f c : Nat}, (∀ i, ((scanR p f c).seen b).count i ≤ 1) ∧ (∀ i ∈ (scanR p f c).seen b, c ≤ i ∧ i ≤ (scanR p f c).outcome b) ∧
    c ≤ (scanR p f c).outcome b
  | 0, c => by simp [scanR, seen, outcome]
  | f + 1, c => by
    simp only [scanR, seen, outcome]
    by_cases h : c < b.length
    · rw [if_pos h, List.getElem?_eq_getElem h]
      dsimp only
      split
      · obtain ⟨h1, h2, h3⟩ := seen_scan (p := p) (f := f) (c := c + 1)
        refine ⟨fun i => ?_, fun i hi => ?_, by omega⟩
        · rw [List.count_cons]
          have := h1 i
          by_cases h4 : c = i
          · subst h4
            have : c ∉ (scanR p f (c + 1)).seen b := fun hm => by have := (h2 c hm).1; omega
            rw [count_zero this]; simp
          · simp [h4]; omega
        · rcases List.mem_cons.1 hi with rfl | hi
          · omega
          · have := h2 i hi; omega
      · refine ⟨fun i => ?_, ?_, ?_⟩ <;> simp [seen, outcome, List.count_cons]
        split <;> omega
    · rw [if_neg h, List.getElem?_eq_none (by omega)]
      simp [seen, outcome]

/-- A scan, and what follows it. -/
theorem Looks.scan {fin : α → Option Nat} {p : Byte → Bool} {n : Nat} {f : Nat → Reader α} (hf : ∀ e, e = (scanR p n c).outcome b → Looks fin b j k m e (f e))
    (hk : k + 1 ≤ m) : Looks fin b j (k + 1) m c ((scanR p n c).bind f) := by
  obtain ⟨h1, h2, h3⟩ := seen_scan (b := b) (p := p) (f := n) (c := c)
  have h4 := hf _ rfl
  generalize ho : (scanR p n c).outcome b = e at *
  refine ⟨fun i => ?_, fun i hi => ?_, fun e' he' => ?_⟩
  · rw [seen_bind, List.count_append, ho]
    have a1 := h1 i
    have a2 := h4.few i
    by_cases h6 : i = e
    · subst h6
      rw [if_pos rfl] at a2
      split <;> omega
    · rw [if_neg h6] at a2
      by_cases h7 : i < e
      · have : i ∉ (f e).seen b := fun hm => by have := h4.low i hm; omega
        rw [count_zero this]
        split <;> omega
      · have : i ∉ (scanR p n c).seen b := fun hm => by have := (h2 i hm).2; omega
        rw [count_zero this, if_neg (by omega)]
        omega
  · rw [seen_bind, List.mem_append, ho] at hi
    rcases hi with hi | hi
    · exact (h2 i hi).1
    · have := h4.low i hi; omega
  · rw [outcome_bind, ho] at he'
    obtain ⟨g1, g2, g3⟩ := h4.high e' he'
    rw [seen_bind, ho]
    refine ⟨by omega, ?_, fun i hi => ?_⟩
    · rw [List.count_append]
      have : e' ∉ (scanR p n c).seen b := fun hm => by have := (h2 e' hm).2; omega
      rw [count_zero this]; omega
    · rw [List.mem_append] at hi
      rcases hi with hi | hi
      · have := (h2 i hi).2; omega
      · exact g3 i hi

theorem seen_bytes : ∀ {n i : Nat}, (∀ x, ((bytes i n).seen b).count x ≤ 1) ∧ ∀ x ∈ (bytes i n).seen b, i ≤ x ∧ x < i + n
  | 0, i => by simp [bytes, seen]
  | n + 1, i => by
    obtain ⟨h1, h2⟩ := seen_bytes (n := n) (i := i + 1)
    have hs : (bytes i (n + 1)).seen b = if i < b.length then i :: (bytes (i + 1) n).seen b else (bytes (i + 1) n).seen b := by
      simp only [bytes, seen, seen_bind, List.append_nil]
    rw [hs]
    split
    · refine ⟨fun x => ?_, fun x hx => ?_⟩
      · rw [List.count_cons]
        have := h1 x
        by_cases h4 : i = x
        · subst h4
          have : i ∉ (bytes (i + 1) n).seen b := fun hm => by have := (h2 i hm).1; omega
          rw [count_zero this]; simp
        · simp [h4]; omega
      · rcases List.mem_cons.1 hx with rfl | hx
        · omega
        · have := h2 x hx; omega
    · exact ⟨h1, fun x hx => by have := h2 x hx; omega⟩

/-- The end of a text. -/
abbrev endT {α : Type} : Res (α × Nat) → Option Nat := endOf Prod.snd

theorem seen_fetch {x : Reader (Res ((Nat × Nat) × Nat))} : (fetch x).seen b = x.seen b ++
    match x.outcome b with | .ok p => (bytes p.1.1 (p.1.2 - p.1.1)).seen b | _ => [] := by
  unfold fetch Reader.andThen
  rw [seen_bind]
  cases x.outcome b with
  | ok p => dsimp only; rw [seen_bind]; simp [seen]
  | _ => rfl

theorem outcome_fetch_end {x : Reader (Res ((Nat × Nat) × Nat))} : endT ((fetch x).outcome b) = endT (x.outcome b) := by
  rw [out_fetch]
  cases x.outcome b <;> rfl

/-- The bytes of a text are looked at once more. -/
theorem Looks.fetch {x : Reader (Res ((Nat × Nat) × Nat))} (h : Looks endT b 0 k m c x)
    (hw : ∀ w e, x.outcome b = .ok (w, e) → c ≤ w.1 ∧ w.2 ≤ e) (hk : ∀ w e, x.outcome b = .ok (w, e) → k + (if c < w.1 then 0 else 1) ≤ k') (hkk : k ≤ k') :
    Looks endT b 0 k' (m + 1) c (fetch x) := by
  cases ho : x.outcome b with
  | ok p =>
    obtain ⟨w, e⟩ := p
    obtain ⟨w1, w2⟩ := hw w e ho
    have hk := hk w e ho
    obtain ⟨h1, h2⟩ := seen_bytes (b := b) (n := w.2 - w.1) (i := w.1)
    obtain ⟨g1, g2, g3⟩ := h.high e (by rw [ho]; rfl)
    have hs : (Verif.fetch x).seen b = x.seen b ++ (bytes w.1 (w.2 - w.1)).seen b := by rw [seen_fetch, ho]
    refine ⟨fun i => ?_, fun i hi => ?_, fun e' he' => ?_⟩
    · rw [hs, List.count_append]
      have a1 := h.few i
      have a2 := h1 i
      by_cases h6 : i = c
      · subst h6
        rw [if_pos rfl] at a1 ⊢
        split at hk
        · have : i ∉ (bytes w.1 (w.2 - w.1)).seen b := fun hm => by have := (h2 i hm).1; omega
          rw [count_zero this]; omega
        · omega
      · rw [if_neg h6] at a1 ⊢
        omega
    · rw [hs, List.mem_append] at hi
      rcases hi with hi | hi
      · exact h.low i hi
      · have := h2 i hi; omega
    · rw [outcome_fetch_end, ho] at he'
      cases he'
      show c < e ∧ _
      refine ⟨g1, ?_, fun i hi => ?_⟩
      · rw [hs, List.count_append]
        show _ + ((bytes w.1 (w.2 - w.1)).seen b).count e ≤ 0
        have : e ∉ (bytes w.1 (w.2 - w.1)).seen b := fun hm => by have := h2 e hm; omega
        rw [count_zero this]; omega
      · rw [hs, List.mem_append] at hi
        show i ≤ e
        rcases hi with hi | hi
        · exact g3 i hi
        · have := h2 i hi; omega
  | _ =>
    have hs : (Verif.fetch x).seen b = x.seen b := by rw [seen_fetch, ho]; simp
    refine ⟨fun i => ?_, fun i hi => h.low i (hs ▸ hi), fun e he => ?_⟩
    · rw [hs]
      have := h.few i
      split <;> simp_all <;> omega
    · rw [outcome_fetch_end, ho] at he
      cases he

end Rules

/-! ### The lexer -/

section Lex
variable {b : Bytes}

/-- What follows looks at nothing and keeps the cursor. -/
theorem Looks.still {α β : Type} {j k m c : Nat} {fin : α → Option Nat} {fin' : β → Option Nat} {x : Reader α} {f : α → Reader β} (hx : Looks fin b j k m c x)
    (hf : (f (x.outcome b)).seen b = [] ∧ ∀ e, fin' ((f (x.outcome b)).outcome b) = some e → fin (x.outcome b) = some e) : Looks fin' b j k m c (x.bind f) where
  few i := by rw [seen_bind, hf.1, List.append_nil]; exact hx.few i
  low i hi := hx.low i (by simpa [seen_bind, hf.1] using hi)
  high e he := by
    rw [outcome_bind] at he
    rw [seen_bind, hf.1, List.append_nil]
    exact hx.high e (hf.2 e he)

theorem Looks.thenStill {α β : Type} {j k m c : Nat} {pos : α → Nat} {pos' : β → Nat} {x : Reader (Res α)} {f : α → Reader (Res β)}
    (hx : Looks (endOf pos) b j k m c x)
    (hf : ∀ a, x.outcome b = .ok a → (f a).seen b = [] ∧ ∀ e, endOf pos' ((f a).outcome b) = some e → pos a = e) : Looks (endOf pos') b j k m c (x.andThen f) := by
  refine hx.still ?_
  cases hr : x.outcome b with
  | ok a => exact ⟨(hf a hr).1, fun e he => congrArg some ((hf a hr).2 e he)⟩
  | _ => exact ⟨rfl, fun e he => by cases he⟩

theorem Looks.okStill {α : Type} {j k m c : Nat} {pos : α → Nat} {rv : Val} {x : Reader (Res α)} {f : α → Reader DR} (hx : Looks (endOf pos) b j k m c x)
    (hf : ∀ a, x.outcome b = .ok a → (f a).seen b = [] ∧ ∀ e, endD ((f a).outcome b) = some e → pos a = e) : Looks endD b j k m c (x.onOk rv f) := by
  refine hx.still ?_
  cases hr : x.outcome b with
  | ok a => exact ⟨(hf a hr).1, fun e he => congrArg some ((hf a hr).2 e he)⟩
  | _ => exact ⟨rfl, fun e he => by cases he⟩

theorem Looks.none {α : Type} {pos : α → Nat} {j k m c : Nat} {e : Err} : Looks (endOf pos) b j k m c (done (.err e)) := .fail rfl rfl

theorem Looks.noneD {j k m c : Nat} {v : Val} {e : Err} : Looks endD b j k m c (done (v, .err e)) := .fail rfl rfl

theorem Looks.panicD {j k m c : Nat} {v : Val} {p : Panic} : Looks endD b j k m c (done (v, .panic p)) := .fail rfl rfl

theorem skipLength_looks (c : Nat) : Looks (endOf id) b 0 1 2 c (skipLengthR b.length c) := by
  unfold skipLengthR
  refine .ite (fun _ => .none) fun _ => .byteThen (k := 0) fun y _ => .ite (fun _ => .none) fun _ => ?_
  refine Looks.ahead (c' := c + 1) (k := 2) ?_ (by omega) (by omega) 0
  refine .scan (k := 1) (fun e _ => ?_) (by omega)
  refine .ite (fun _ => .none) fun _ => .ite (fun _ => .none) fun _ => .byteThen (k := 0) fun y _ => .ite (fun _ => .none) fun _ => ?_
  exact .ret rfl (by show e < e + 1; omega)

/-- A slice is looked at when its bytes are. -/
theorem seen_sub {n lo hi e : Nat} : ((done (subR n lo hi)).andThen fun w => done (.ok (w, e)) : Reader (Res ((Nat × Nat) × Nat))).seen b = [] := by
  unfold subR
  split <;> rfl

theorem out_sub {n lo hi e : Nat} : ((done (subR n lo hi)).andThen fun w => done (.ok (w, e)) : Reader (Res ((Nat × Nat) × Nat))).outcome b =
    if lo ≤ hi ∧ hi ≤ n then .ok ((lo, hi), e) else .panic .slice := by
  unfold subR
  split <;> rfl

theorem end_sub {n lo hi e e' : Nat}
    (h : endT (((done (subR n lo hi)).andThen fun w => done (.ok (w, e)) : Reader (Res ((Nat × Nat) × Nat))).outcome b) = some e') : e = e' := by
  rw [out_sub] at h
  split at h <;> cases h
  rfl

theorem out_sub_ok {n lo hi e e' : Nat} {w : Nat × Nat}
    (h : ((done (subR n lo hi)).andThen fun w => done (.ok (w, e)) : Reader (Res ((Nat × Nat) × Nat))).outcome b = .ok (w, e')) :
    w = (lo, hi) ∧ e = e' ∧ lo ≤ hi := by
  rw [out_sub] at h
  split at h <;> cases h
  exact ⟨rfl, rfl, by omega⟩

theorem readLength_looks (c : Nat) : Looks endT b 0 1 3 c (readLengthR b.length c) := by
  unfold readLengthR
  refine .thenStill (pos := Prod.snd) ?_ fun a _ => ⟨rfl, fun e he => ?_⟩
  · refine Looks.fetch (k := 1) (m := 2) ?_ ?_ ?_ (by omega)
    · exact (skipLength_looks c).thenStill fun e _ => ⟨seen_sub, fun e' h => end_sub h⟩
    all_goals
      intro w e h
      rw [outcome_andThen, out_skipLength, Res.bind_eq_ok] at h
      obtain ⟨e1, h1, h⟩ := h
      obtain ⟨rfl, rfl, h3⟩ := out_sub_ok h
      dsimp only
      first | omega | (rw [if_pos (by omega)]; omega)
  · obtain ⟨t, e1⟩ := a
    simp only [outcome_done, lengthOf] at he
    split at he
    · split at he
      · cases he
      · cases he; rfl
    all_goals cases he

theorem classEnd {c : Nat} {l : Int} {start : Nat} (hb : b.length < 2 ^ 63) (h : readLength b c = .ok (l, start)) (hs : start < b.length)
    (he : hasBytesR b.length (wrap64 ((start : Int) + l + 1)) 2 = true) : start < (wrap64 ((start : Int) + l + 1)).toNat := by
  obtain ⟨ds, m, hm, rfl, h2, h3⟩ := readLength_sound h
  have hm' := hm.2
  simp only [hasBytesR, decide_eq_true_eq] at he
  have := SameFrom.wrap64_small (x := (start : Int) + m + 1) (by omega) (by omega) (by omega)
  omega

theorem has_of {n c : Nat} (h : ¬ (!hasByteR n c) = true) : c < n := by
  simpa [hasByteR] using h

theorem skipClassName_looks (hb : b.length < 2 ^ 63) (c : Nat) : Looks (endOf (· + 1)) b 1 1 3 c (skipClassNameR b.length c) := by
  unfold skipClassNameR
  refine .ite (fun _ => .none) fun _ => .byteThen (k := 0) fun y _ => .ite (fun _ => .none) fun _ => ?_
  refine Looks.ahead (c' := c + 1) (k := 1) ?_ (by omega) (by omega) 0
  refine (readLength_looks (c + 1)).andThen (k' := 1) ?_ (by omega)
  rintro ⟨l, start⟩ hl
  rw [out_readLength] at hl
  refine .ite (fun _ => .none) fun hs => .byteThen (k := 0) fun y _ => .ite (fun _ => .none) fun _ => .ite (fun _ => .none) fun he => ?_
  have h1 := classEnd hb hl (has_of hs) (by simpa using he)
  dsimp only
  generalize (wrap64 ((start : Int) + l + 1)) = e at h1 ⊢
  refine Looks.ahead (c' := e.toNat) (k := 1) ?_ h1 (by omega) 0
  refine .byteThen (k := 0) fun y _ => .ite (fun _ => .none) fun _ => ?_
  have hseen : ∀ f : Byte → Reader (Res Nat), (∀ y, (f y).seen b = []) → ((byte (e.toNat + 1)).andThen f).seen b = (byte (e.toNat + 1)).seen b := by
    intro f hf
    unfold Reader.andThen
    rw [seen_bind]
    cases (byte (e.toNat + 1)).outcome b <;> simp [hf, seen]
  have hs := hseen (fun y => if y ≠ cColon then done (.err (.unexpected "':' after class name" (e + 1) y)) else done (.ok e.toNat)) (fun y => by split <;> rfl)
  refine ⟨fun i => ?_, fun i hi => ?_, fun e' he' => ?_⟩
  · rw [hs, seen_byte]
    split
    · simp only [List.count_cons, List.count_nil]
      by_cases h2 : e.toNat + 1 = i
      · subst h2; simp
      · simp [h2]
    · simp
  · rw [hs, seen_byte] at hi
    split at hi
    · simp at hi; omega
    · simp at hi
  · rw [outcome_andThen] at he'
    have : e' = e.toNat + 1 := by
      cases hr : (byte (e.toNat + 1)).outcome b with
      | ok y =>
        rw [hr] at he'
        simp only [Res.bind_ok, outcome_ite, outcome_done] at he'
        split at he'
        · cases he'
        · cases he'; rfl
      | _ => rw [hr] at he'; cases he'
    subst this
    rw [hs, seen_byte]
    split <;> simp <;> omega

theorem readString_looks (c : Nat) : Looks endT b 0 1 3 c (readStringR b.length c) := by
  unfold readStringR
  refine (readLength_looks c).andThen (k' := 1) ?_ (by omega)
  rintro ⟨l, e⟩ hl
  refine .ite (fun _ => .none) fun _ => .byteThen (k := 0) fun y _ => .ite (fun _ => .none) fun _ => .ite (fun _ => .none) fun _ => ?_
  refine Looks.ahead (c' := e + 1 + l.toNat) (k := 1) ?_ (by show e < _; omega) (by omega) 0
  refine .byteThen (k := 0) fun y _ => .ite (fun _ => .none) fun _ => ?_
  refine Looks.ahead (c' := e + 1 + l.toNat + 1) (k := 1) ?_ (by omega) (by omega) 0
  refine .byteThen (k := 0) fun y _ => .ite (fun _ => .none) fun _ => ?_
  refine ⟨fun i => by rw [seen_sub]; simp, fun i hi => by rw [seen_sub] at hi; simp at hi, fun e' he => ?_⟩
  have := end_sub he
  exact ⟨by omega, by rw [seen_sub]; simp, fun i hi => by rw [seen_sub] at hi; simp at hi⟩

theorem readInteger_looks (c : Nat) : Looks endT b 0 1 3 c (readIntegerR b.length c) := by
  unfold readIntegerR
  refine .ite (fun _ => .none) fun _ => .byteThen (k := 0) fun y _ => .ite (fun _ => .none) fun _ => .ite (fun _ => .none) fun _ => ?_
  refine Looks.ahead (c' := c + 1) (k := 1) ?_ (by omega) (by omega) 0
  refine .byteThen (k := 0) fun y _ => .ite (fun _ => .none) fun _ => ?_
  refine Looks.ahead (c' := c + 2) (k := 3) ?_ (by omega) (by omega) 0
  refine .byteThen (k := 2) fun y _ => ?_
  have key : ∀ s, Looks endT b 0 2 3 s ((scanR isDigit (b.length - s) s).bind fun c' =>
      if c' = s then done (.err (.syntaxErr "integer requires at least one digit" c')) else
      if !hasByteR b.length c' then done (.err (.unexpectedEnd "integer" c')) else
      (byte c').andThen fun y => if y ≠ cSemi then done (.err (.unexpected "';' after integer" c' y)) else
      (done (subR b.length (c + 2) c')).andThen fun w => done (.ok (w, c' + 1))) := by
    intro s
    refine .scan (k := 1) (fun e _ => ?_) (by omega)
    refine .ite (fun _ => .none) fun _ => .ite (fun _ => .none) fun _ => .byteThen (k := 0) fun y _ => .ite (fun _ => .none) fun _ => ?_
    refine ⟨fun i => by rw [seen_sub]; simp, fun i hi => by rw [seen_sub] at hi; simp at hi, fun e' he => ?_⟩
    have := end_sub he
    exact ⟨by omega, by rw [seen_sub]; simp, fun i hi => by rw [seen_sub] at hi; simp at hi⟩
  dsimp only
  by_cases hy : y = cMinus
  · rw [if_pos hy]
    exact (key (c + 2 + 1)).ahead (by omega) (by omega) 2
  · rw [if_neg hy]
    exact key (c + 2)

theorem readFloat_looks (c : Nat) : Looks endT b 0 1 3 c (readFloatR b.length c) := by
  unfold readFloatR
  refine .ite (fun _ => .none) fun _ => .byteThen (k := 0) fun y _ => .ite (fun _ => .none) fun _ => .ite (fun _ => .none) fun _ => ?_
  refine Looks.ahead (c' := c + 1) (k := 1) ?_ (by omega) (by omega) 0
  refine .byteThen (k := 0) fun y _ => .ite (fun _ => .none) fun _ => ?_
  refine Looks.ahead (c' := c + 2) (k := 1) ?_ (by omega) (by omega) 0
  refine .scan (k := 0) (fun e _ => ?_) (by omega)
  refine .ite (fun _ => .none) fun _ => .ite (fun _ => .none) fun _ => ?_
  refine ⟨fun i => by rw [seen_sub]; simp, fun i hi => by rw [seen_sub] at hi; simp at hi, fun e' he => ?_⟩
  have := end_sub he
  exact ⟨by omega, by rw [seen_sub]; simp, fun i hi => by rw [seen_sub] at hi; simp at hi⟩

theorem subR_ok {n lo hi : Nat} {w : Nat × Nat} (h : subR n lo hi = .ok w) : w = (lo, hi) ∧ lo ≤ hi := by
  unfold subR at h
  split at h
  · cases h; exact ⟨rfl, by omega⟩
  · cases h

/-- Where the content of a string lies. -/
theorem readString_place {c e : Nat} {w : Nat × Nat} (h : (readStringR b.length c).outcome b = .ok (w, e)) : c < w.1 ∧ w.2 ≤ e := by
  unfold readStringR at h
  simp only [outcome_ite, outcome_andThen, outcome_byte, outcome_done, out_readLength, Res.bind_eq_ok, Res.ite_err_ok] at h
  obtain ⟨⟨l, e1⟩, hl, -, x, -, -, -, y, -, -, z, -, -, h⟩ := h
  obtain ⟨ds, m, hm, rfl, h2, h3⟩ := readLength_sound hl
  obtain ⟨w', hw, h⟩ := h
  cases h
  obtain ⟨rfl, -⟩ := subR_ok hw
  dsimp only
  omega

theorem readInteger_place {c e : Nat} {w : Nat × Nat} (h : (readIntegerR b.length c).outcome b = .ok (w, e)) : c < w.1 ∧ w.2 ≤ e := by
  unfold readIntegerR at h
  simp only [outcome_ite, outcome_andThen, outcome_byte, outcome_done, outcome_bind, Res.bind_eq_ok, Res.ite_err_ok] at h
  obtain ⟨-, x, -, -, -, y, -, -, z, -, -, -, u, -, -, w', hw, h⟩ := h
  cases h
  obtain ⟨rfl, -⟩ := subR_ok hw
  dsimp only
  omega

theorem readFloat_place {c e : Nat} {w : Nat × Nat} (h : (readFloatR b.length c).outcome b = .ok (w, e)) : c < w.1 ∧ w.2 ≤ e := by
  unfold readFloatR at h
  simp only [outcome_ite, outcome_andThen, outcome_byte, outcome_done, outcome_bind, Res.bind_eq_ok, Res.ite_err_ok] at h
  obtain ⟨-, x, -, -, -, y, -, -, -, -, w', hw, h⟩ := h
  cases h
  obtain ⟨rfl, -⟩ := subR_ok hw
  dsimp only
  omega

theorem Looks.fetchInside {k m c : Nat} {x : Reader (Res ((Nat × Nat) × Nat))} (h : Looks endT b 0 k m c x)
    (hw : ∀ w e, x.outcome b = .ok (w, e) → c < w.1 ∧ w.2 ≤ e) : Looks endT b 0 k (m + 1) c (Verif.fetch x) := by
  refine h.fetch (fun w e ho => ?_) (fun w e ho => ?_) (Nat.le_refl k)
  · have := hw w e ho; omega
  · have := hw w e ho
    rw [if_pos this.1]; omega

theorem stringText_looks (c : Nat) : Looks endT b 0 1 4 c (fetch (readStringR b.length c)) := (readString_looks c).fetchInside fun _ _ => readString_place
theorem intText_looks (c : Nat) : Looks endT b 0 1 4 c (fetch (readIntegerR b.length c)) := (readInteger_looks c).fetchInside fun _ _ => readInteger_place
theorem floatText_looks (c : Nat) : Looks endT b 0 1 4 c (fetch (readFloatR b.length c)) := (readFloat_looks c).fetchInside fun _ _ => readFloat_place

theorem readInt_looks (c : Nat) : Looks endT b 0 1 4 c (readIntR b.length c) := by
  unfold readIntR
  refine (intText_looks c).thenStill fun a _ => ⟨rfl, fun e he => ?_⟩
  obtain ⟨t, e1⟩ := a
  simp only [outcome_done, indexOf] at he
  split at he
  · split at he
    · cases he
    · cases he; rfl
  all_goals cases he

/-- A few bytes in a row, and then what follows. -/
theorem readBool_looks {m : Nat} (hm : 1 ≤ m) (c : Nat) : Looks (endOf fun _ : Bool => c + 4) b 0 1 m c (readBoolR b.length c) := by
  unfold readBoolR
  refine .ite (fun _ => .none) fun _ => .byteThen (k := 0) fun y _ => .ite (fun _ => .none) fun _ => ?_
  refine Looks.ahead (c' := c + 1) (k := 1) ?_ (by omega) (by omega) 0
  refine .byteThen (k := 0) fun y _ => .ite (fun _ => .none) fun _ => ?_
  refine Looks.ahead (c' := c + 2) (k := 1) ?_ (by omega) (by omega) 0
  refine .byteThen (k := 0) fun y _ => .ite (fun _ => .none) fun _ => ?_
  refine Looks.ahead (c' := c + 3) (k := 1) ?_ (by omega) (by omega) 0
  refine .byteThen (k := 0) fun y _ => .ite (fun _ => .none) fun _ => ?_
  exact .ret rfl (by dsimp only; omega)

theorem validateNull_looks {m : Nat} (hm : 1 ≤ m) (c : Nat) : Looks (endOf fun _ : Unit => c + 2) b 0 0 m c (validateNullR b.length c) := by
  unfold validateNullR
  refine .ite (fun _ => .none) fun _ => ?_
  refine Looks.ahead (c' := c + 1) (k := 1) ?_ (by omega) (by omega) 0
  refine .byteThen (k := 0) fun y _ => .ite (fun _ => .none) fun _ => ?_
  exact .ret rfl (by dsimp only; omega)

theorem validateEmptyArray_looks {m : Nat} (hm : 1 ≤ m) (c : Nat) : Looks (endOf fun _ : Unit => c + 4) b 0 0 m c (validateEmptyArrayR b.length c) := by
  unfold validateEmptyArrayR
  refine .ite (fun _ => .none) fun _ => ?_
  refine Looks.ahead (c' := c + 1) (k := 1) ?_ (by omega) (by omega) 0
  refine .byteThen (k := 0) fun y _ => .ite (fun _ => .none) fun _ => ?_
  refine Looks.ahead (c' := c + 2) (k := 1) ?_ (by omega) (by omega) 0
  refine .byteThen (k := 0) fun y _ => .ite (fun _ => .none) fun _ => ?_
  refine Looks.ahead (c' := c + 3) (k := 1) ?_ (by omega) (by omega) 0
  refine .byteThen (k := 0) fun y _ => .ite (fun _ => .none) fun _ => ?_
  exact .ret rfl (by dsimp only; omega)

theorem bind_bind {α β γ : Type} (x : Reader α) (f : α → Reader β) (g : β → Reader γ) : (x.bind f).bind g = x.bind fun a => (f a).bind g := by
  induction x with
  | done a => rfl
  | look i k ih => exact congrArg (Reader.look i) (funext fun y => ih y)

theorem andThen_andThen {α β γ : Type} (x : Reader (Res α)) (f : α → Reader (Res β)) (g : β → Reader (Res γ)) :
    (x.andThen f).andThen g = x.andThen fun a => (f a).andThen g := by
  unfold Reader.andThen
  rw [bind_bind]
  refine congrArg (fun h => Reader.bind h x) (funext fun r => ?_)
  cases r <;> rfl

theorem skipPairs_looks {skip : Nat → Reader (Res Nat)} (h : ∀ c, Looks (endOf id) b 0 2 3 c (skip c)) {f : Nat → Reader (Res Nat)}
    (hf : ∀ c, Looks (endOf id) b 0 1 3 c (f c)) : ∀ {m c : Nat}, Looks (endOf id) b 0 2 3 c ((skipPairsR skip m c).andThen f)
  | 0, c => (hf c).weaken (by omega) (by omega) (by omega)
  | m + 1, c => by
    rw [skipPairsR, andThen_andThen]
    refine (h c).andThen (k' := 2) (fun c1 _ => ?_) (by omega)
    rw [andThen_andThen]
    exact (h c1).andThen (k' := 2) (fun c2 _ => skipPairs_looks h hf) (by omega)

theorem skipArray_looks {skip : Nat → Reader (Res Nat)} (h : ∀ c, Looks (endOf id) b 0 2 3 c (skip c)) (c d : Nat) :
    Looks (endOf id) b 0 1 3 c (skipArrayR skip b.length c d) := by
  unfold skipArrayR
  refine .ite (fun _ => .none) fun _ => (readLength_looks c).andThen (k' := 1) ?_ (by omega)
  rintro ⟨l, e⟩ -
  refine .ite (fun _ => .none) fun _ => .byteThen (k := 0) fun y _ => .ite (fun _ => .none) fun _ => ?_
  refine Looks.ahead (c' := e + 1) (k := 2) ?_ (by show e < e + 1; omega) (by omega) 0
  refine skipPairs_looks h fun c2 => ?_
  refine .ite (fun _ => .none) fun _ => .byteThen (k := 0) fun y _ => .ite (fun _ => .none) fun _ => ?_
  exact .ret rfl (by show c2 < c2 + 1; omega)

theorem skipString_looks (c : Nat) : Looks (endOf id) b 0 1 3 c (skipStringR b.length c) := by
  unfold skipStringR
  refine .ite (fun _ => .none) fun _ => .byteThen (k := 0) fun y _ => .ite (fun _ => .none) fun _ => ?_
  refine Looks.ahead (c' := c + 1) (k := 1) ?_ (by omega) (by omega) 0
  exact (readString_looks (c + 1)).thenStill fun a _ => ⟨rfl, fun e he => by cases he; rfl⟩

theorem skipValueF_looks (hb : b.length < 2 ^ 63) : ∀ {f c d : Nat}, Looks (endOf id) b 0 2 3 c (skipValueFR f b.length c d)
  | 0, c, d => .fail rfl rfl
  | f + 1, c, d => by
    unfold skipValueFR
    refine .ite (fun _ => .none) fun _ => .byteThen (k := 1) fun y _ => ?_
    have ha := fun c => skipArray_looks (b := b) (fun c => skipValueF_looks hb (f := f) (c := c) (d := d + 1)) c (d + 1)
    refine .ite (fun _ => ?_) fun _ => .ite (fun _ => ?_) fun _ => .ite (fun _ => ?_) fun _ => .ite (fun _ => ?_) fun _ => .ite (fun _ => ?_) fun _ =>
      .ite (fun _ => ?_) fun _ => .ite (fun _ => ?_) fun _ => .none
    · exact (skipClassName_looks hb c).andThen (k' := 1) (fun e _ => ha (e + 1)) (by omega)
    · exact (ha (c + 1)).ahead (by omega) (by omega) 1
    · exact skipString_looks c
    · exact (readFloat_looks c).thenStill fun a _ => ⟨rfl, fun e he => by cases he; rfl⟩
    · exact (readInteger_looks c).thenStill fun a _ => ⟨rfl, fun e he => by cases he; rfl⟩
    · exact (readBool_looks (by omega) c).thenStill fun a _ => ⟨rfl, fun e he => by cases he; rfl⟩
    · exact ((validateNull_looks (m := 3) (by omega) c).thenStill fun a _ => ⟨rfl, fun e he => by cases he; rfl⟩).weaken (by omega) (by omega) (by omega)

theorem skipValue_looks (hb : b.length < 2 ^ 63) (c d : Nat) : Looks (endOf id) b 0 2 3 c (skipValueR b.length c d) := skipValueF_looks hb

/-! ### Scalars -/

theorem intBytes_looks (c : Nat) : Looks endT b 0 2 4 c (intBytesR b.length c) := by
  unfold intBytesR
  refine .ite (fun _ => .none) fun _ => .byteThen (k := 1) fun y _ => .ite (fun _ => ?_) fun _ => ?_
  · exact ((validateNull_looks (m := 4) (by omega) c).thenStill fun a _ => ⟨rfl, fun e he => by cases he; rfl⟩).weaken (by omega) (by omega) (by omega)
  · exact (intText_looks c).thenStill fun a _ => ⟨rfl, fun e he => by cases he; rfl⟩

theorem floatBytes_looks (c : Nat) : Looks endT b 0 2 4 c (floatBytesR b.length c) := by
  unfold floatBytesR
  refine .ite (fun _ => .none) fun _ => .byteThen (k := 1) fun y _ => .ite (fun _ => ?_) fun _ => .ite (fun _ => ?_) fun _ => .none
  · exact ((validateNull_looks (m := 4) (by omega) c).thenStill fun a _ => ⟨rfl, fun e he => by cases he; rfl⟩).weaken (by omega) (by omega) (by omega)
  · exact (floatText_looks c).thenStill fun a _ => ⟨rfl, fun e he => by cases he; rfl⟩

theorem stringBytes_looks (c : Nat) : Looks endT b 0 1 4 c (stringBytesR b.length c) := by
  unfold stringBytesR
  refine .ite (fun _ => .none) fun _ => .byteThen (k := 0) fun y _ => .ite (fun _ => ?_) fun _ => .ite (fun _ => .none) fun _ => .ite (fun _ => .none) fun _ =>
    .ite (fun _ => ?_) fun _ => .ite (fun _ => .none) fun _ => .none
  · exact (validateNull_looks (by omega) c).thenStill fun a _ => ⟨rfl, fun e he => by cases he; rfl⟩
  · exact ((stringText_looks (c + 1)).thenStill fun a _ => ⟨rfl, fun e he => by cases he; rfl⟩).ahead (by omega) (by omega) 0

theorem processInt_end {k : IKind} {t : Bytes} {c e : Nat} {rv : Val} (h : endD (processInt k t c rv) = some e) : c = e := by
  unfold processInt at h
  split at h
  · split at h <;> cases h
    rfl
  all_goals cases h

theorem processUint_end {k : UKind} {t : Bytes} {c e : Nat} {rv : Val} (h : endD (processUint k t c rv) = some e) : c = e := by
  unfold processUint at h
  split at h
  · cases h
  · split at h <;> cases h
    rfl

theorem processFloat_end {W : World} {is32 : Bool} {t : Bytes} {c e : Nat} {rv : Val} (h : endD (processFloat W is32 t c rv) = some e) : c = e := by
  unfold processFloat at h
  split at h
  · cases h
  · split at h
    · split at h <;> cases h
      rfl
    · cases h; rfl

theorem int_looks (k : IKind) (c : Nat) (rv : Val) : Looks endD b 0 2 4 c (intDecodeR k b.length c rv) := by
  unfold intDecodeR
  refine (intBytes_looks c).okStill ?_
  rintro ⟨ob, e1⟩ -
  cases ob with
  | none => exact ⟨rfl, fun e he => by cases he; rfl⟩
  | some t => exact ⟨rfl, fun e he => processInt_end he⟩

theorem uint_looks (k : UKind) (c : Nat) (rv : Val) : Looks endD b 0 2 4 c (uintDecodeR k b.length c rv) := by
  unfold uintDecodeR
  refine (intBytes_looks c).okStill ?_
  rintro ⟨ob, e1⟩ -
  cases ob with
  | none => exact ⟨rfl, fun e he => by cases he; rfl⟩
  | some t => exact ⟨rfl, fun e he => processUint_end he⟩

theorem float_looks (W : World) (is32 : Bool) (c : Nat) (rv : Val) : Looks endD b 0 2 4 c (floatDecodeR W is32 b.length c rv) := by
  unfold floatDecodeR
  refine (floatBytes_looks c).okStill ?_
  rintro ⟨ob, e1⟩ -
  cases ob with
  | none => exact ⟨rfl, fun e he => by cases he; rfl⟩
  | some t => exact ⟨rfl, fun e he => processFloat_end he⟩

theorem bool_looks (c : Nat) (rv : Val) : Looks endD b 0 2 4 c (boolDecodeR b.length c rv) := by
  unfold boolDecodeR
  refine .ite (fun _ => .noneD) fun _ => .byteOk (k := 1) fun y _ => .ite (fun _ => ?_) fun _ => .ite (fun _ => ?_) fun _ => .noneD
  · exact (readBool_looks (by omega) c).okStill fun a _ => ⟨rfl, fun e he => by cases he; rfl⟩
  · exact ((validateNull_looks (m := 4) (by omega) c).okStill fun a _ => ⟨rfl, fun e he => by cases he; rfl⟩).weaken (by omega) (by omega) (by omega)

theorem string_looks (c : Nat) (rv : Val) : Looks endD b 0 1 4 c (stringDecodeR b.length c rv) := by
  unfold stringDecodeR
  refine (stringBytes_looks c).okStill ?_
  rintro ⟨ob, e1⟩ -
  cases ob with
  | none => exact ⟨rfl, fun e he => by cases he; rfl⟩
  | some t => exact ⟨rfl, fun e he => by cases he; rfl⟩

theorem wrapped_looks (W : World) (t : Ty) (c : Nat) (rv : Val) : Looks endD b 0 1 4 c (wrappedDecodeR W t b.length c rv) := by
  unfold wrappedDecodeR
  refine (stringBytes_looks c).okStill ?_
  rintro ⟨ob, e1⟩ -
  cases ob with
  | none => exact ⟨rfl, fun e he => by cases he; rfl⟩
  | some s =>
    refine ⟨rfl, fun e he => ?_⟩
    dsimp only [outcome] at he
    cases hr : (decodeString W t s c rv).2 with
    | ok a => rw [hr] at he; cases he; rfl
    | _ => rw [hr] at he; cases he

end Lex

end Verif
