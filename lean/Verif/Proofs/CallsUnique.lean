import Verif.Proofs.CallsOrder
import Verif.Proofs.DecFacts
/-
The document and the type determine the calls (up to what an interface happens to hold).
-/
set_option linter.unusedSimpArgs false
namespace Verif
open Spec

theorem alike_append {as bs cs ds : Calls} (h : AlikeCalls as bs) (h' : AlikeCalls cs ds) : AlikeCalls (as ++ cs) (bs ++ ds) := by
  unfold AlikeCalls at *
  rw [List.map_append, List.map_append, h, h']

theorem container_entries {d : Doc} {cnt cnt' : Bytes} {es es' : List (Doc × Doc)} (h : Container d cnt es) (h' : Container d cnt' es') : es = es' := by
  cases h <;> cases h' <;> rfl

theorem container_not_null {cnt : Bytes} {es : List (Doc × Doc)} : ¬ Container .null cnt es := by
  intro h; cases h

theorem fieldFor_only {W : World} {id : Nat} {key : Bytes} {i j : Nat} {f g : Field} (h : FieldFor W id key i f) (h' : FieldFor W id key j g) : f = g := by
  obtain ⟨a1, a2, a3, a4⟩ := h
  obtain ⟨b1, b2, b3, b4⟩ := h'
  have : i = j := by
    rcases Nat.lt_trichotomy i j with hl | hl | hl
    · exact absurd a3 (b4 i f hl a1 a2)
    · exact hl
    · exact absurd b3 (a4 j g hl b1 b2)
  subst this
  rw [a1] at b1
  cases b1; rfl

theorem handed_null {W : World} {t : Ty} {d : Doc} {cs : Calls} (h : Handed W t d cs) : d = .null → cs = [] := by
  refine Handed.rec (motive_1 := fun _ d cs _ => d = .null → cs = []) (motive_2 := fun _ _ _ _ _ => True)
    (motive_3 := fun _ _ _ _ _ => True) (motive_4 := fun _ _ _ _ => True)
    ?_ ?_ ?_ ?_ ?_ ?_ ?_ ?_ ?_ ?_ ?_ ?_ ?_ ?_ ?_ ?_ ?_ ?_ h
  · intros; rfl
  · intro t id d n _ h1 _ h2; exact absurd h2 h1
  · intro t id d n dt dv _ h1 _ _ h2; exact absurd h2 h1
  · intro t e d cs _ _ ih; exact ih
  · intros; rfl
  · intros; rfl
  · intro t e cnt es cs _ _ _ h; cases h
  · intro t n e cnt es cs _ _ _ h; cases h
  · intro t k v d cnt es cs _ hc _ _ h; subst h; cases hc
  · intro t id d cnt es cs _ hc _ _ h; subst h; cases hc
  all_goals intros; trivial

theorem plain_eq {W : World} {t u v : Ty} (h : Plain W t u) (h' : Plain W t v) : u = v := h.2.symm.trans h'.2

theorem noCalls_plain {W : World} {t u : Ty} (h : NoCalls W t) (h' : Plain W t u) (hu : (∃ e, u = .ptr e) ∨ (∃ e, u = .slice e) ∨ (∃ n e, u = .array n e) ∨
    (∃ k v, u = .map k v) ∨ (∃ id, u = .struct id) ∨ (∃ i, u = .iface i)) : False := by
  obtain ⟨_, h⟩ := h
  rw [h'.2] at h
  rcases hu with ⟨_, rfl⟩ | ⟨_, rfl⟩ | ⟨_, _, rfl⟩ | ⟨_, _, rfl⟩ | ⟨_, rfl⟩ | ⟨_, rfl⟩ <;> simp at h

theorem handed_unique {W : World} {t : Ty} {d : Doc} {cs cs' : Calls} (h : Handed W t d cs) (h' : Handed W t d cs') : AlikeCalls cs cs' := by
  revert cs'
  refine Handed.rec (motive_1 := fun t d cs _ => ∀ {cs'}, Handed W t d cs' → AlikeCalls cs cs')
    (motive_2 := fun e lim es cs _ => ∀ {cs'}, HandedElems W e lim es cs' → AlikeCalls cs cs')
    (motive_3 := fun k v es cs _ => ∀ {cs'}, HandedPairs W k v es cs' → AlikeCalls cs cs')
    (motive_4 := fun id es cs _ => ∀ {cs'}, HandedFields W id es cs' → AlikeCalls cs cs')
    ?_ ?_ ?_ ?_ ?_ ?_ ?_ ?_ ?_ ?_ ?_ ?_ ?_ ?_ ?_ ?_ ?_ ?_ h
  · intro t cs' h'; rw [handed_null h' rfl]; rfl
  · intro t id d n hu h1 h2 cs' h'
    cases h' with
    | null => exact absurd rfl h1
    | own hu' => rw [hu] at hu'; cases hu'; rfl
    | held hp => exact absurd (hu.symm.trans hp.1) (by simp)
    | ptr hp => exact absurd (hu.symm.trans hp.1) (by simp)
    | scalar hp => exact absurd (hu.symm.trans hp.1) (by simp)
    | bytes hp => exact absurd (hu.symm.trans hp.1) (by simp)
    | slice hp => exact absurd (hu.symm.trans hp.1) (by simp)
    | array hp => exact absurd (hu.symm.trans hp.1) (by simp)
    | map hp => exact absurd (hu.symm.trans hp.1) (by simp)
    | struct hp => exact absurd (hu.symm.trans hp.1) (by simp)
  · intro t i d n dt dv hp h1 h2 _ cs' h'
    cases h' with
    | null => exact absurd rfl h1
    | own hu' => exact absurd (hu'.symm.trans hp.1) (by simp)
    | held hp' => rfl
    | ptr hp' => cases plain_eq hp hp'
    | scalar hp' => exact (noCalls_plain hp' hp (by simp)).elim
    | bytes hp' => cases plain_eq hp hp'
    | slice hp' => cases plain_eq hp hp'
    | array hp' => cases plain_eq hp hp'
    | map hp' => cases plain_eq hp hp'
    | struct hp' => cases plain_eq hp hp'
  · intro t e d cs hp hc ih cs' h'
    cases h' with
    | null => rw [handed_null hc rfl]; rfl
    | own hu' => exact absurd (hu'.symm.trans hp.1) (by simp)
    | held hp' => cases plain_eq hp hp'
    | ptr hp' hc' => cases plain_eq hp hp'; exact ih hc'
    | scalar hp' => exact (noCalls_plain hp' hp (by simp)).elim
    | bytes hp' => cases plain_eq hp hp'
    | slice hp' => cases plain_eq hp hp'
    | array hp' => cases plain_eq hp hp'
    | map hp' => cases plain_eq hp hp'
    | struct hp' => cases plain_eq hp hp'
  · intro t d hs cs' h'
    cases h' with
    | null => rfl
    | own hu' => exact absurd (hu'.symm.trans hs.1) (by simp)
    | held hp' => exact (noCalls_plain hs hp' (by simp)).elim
    | ptr hp' hc' => exact (noCalls_plain hs hp' (by simp)).elim
    | scalar hp' => rfl
    | bytes hp' => rfl
    | slice hp' => exact (noCalls_plain hs hp' (by simp)).elim
    | array hp' => exact (noCalls_plain hs hp' (by simp)).elim
    | map hp' => exact (noCalls_plain hs hp' (by simp)).elim
    | struct hp' => exact (noCalls_plain hs hp' (by simp)).elim
  · intro t e l s hp cs' h'
    cases h' with
    | own hu' => exact absurd (hu'.symm.trans hp.1) (by simp)
    | held hp' => cases plain_eq hp hp'
    | ptr hp' hc' => cases plain_eq hp hp'
    | scalar hp' => rfl
    | bytes hp' => rfl
    | map hp' => cases plain_eq hp hp'
    | struct hp' => cases plain_eq hp hp'
  · intro t e cnt es cs hp _ ih cs' h'
    cases h' with
    | own hu' => exact absurd (hu'.symm.trans hp.1) (by simp)
    | held hp' => cases plain_eq hp hp'
    | ptr hp' hc' => cases plain_eq hp hp'
    | scalar hp' => exact (noCalls_plain hp' hp (by simp)).elim
    | slice hp' hc' => cases plain_eq hp hp'; exact ih hc'
    | array hp' => cases plain_eq hp hp'
    | map hp' => cases plain_eq hp hp'
    | struct hp' => cases plain_eq hp hp'
  · intro t n e cnt es cs hp _ ih cs' h'
    cases h' with
    | own hu' => exact absurd (hu'.symm.trans hp.1) (by simp)
    | held hp' => cases plain_eq hp hp'
    | ptr hp' hc' => cases plain_eq hp hp'
    | scalar hp' => exact (noCalls_plain hp' hp (by simp)).elim
    | slice hp' hc' => cases plain_eq hp hp'
    | array hp' hc' => cases plain_eq hp hp'; exact ih hc'
    | map hp' => cases plain_eq hp hp'
    | struct hp' => cases plain_eq hp hp'
  · intro t k v d cnt es cs hp hc _ ih cs' h'
    cases h' with
    | null => exact absurd hc container_not_null
    | own hu' => exact absurd (hu'.symm.trans hp.1) (by simp)
    | held hp' => cases plain_eq hp hp'
    | ptr hp' hc' => cases plain_eq hp hp'
    | scalar hp' => exact (noCalls_plain hp' hp (by simp)).elim
    | bytes hp' => cases plain_eq hp hp'
    | slice hp' hc' => cases plain_eq hp hp'
    | array hp' => cases plain_eq hp hp'
    | map hp' hc' hh => cases plain_eq hp hp'; cases container_entries hc hc'; exact ih hh
    | struct hp' => cases plain_eq hp hp'
  · intro t id d cnt es cs hp hc _ ih cs' h'
    cases h' with
    | null => exact absurd hc container_not_null
    | own hu' => exact absurd (hu'.symm.trans hp.1) (by simp)
    | held hp' => cases plain_eq hp hp'
    | ptr hp' hc' => cases plain_eq hp hp'
    | scalar hp' => exact (noCalls_plain hp' hp (by simp)).elim
    | bytes hp' => cases plain_eq hp hp'
    | slice hp' hc' => cases plain_eq hp hp'
    | array hp' => cases plain_eq hp hp'
    | map hp' hc' hh => cases plain_eq hp hp'
    | struct hp' hc' hh => cases plain_eq hp hp'; cases container_entries hc hc'; exact ih hh
  · intro e lim cs' h'; cases h'; rfl
  · intro e lim txt i d es cs cs1 hi hl _ _ ih ih' cs' h'
    cases h' with
    | elem hi' hl' g1 g2 => exact alike_append (ih g1) (ih' g2)
    | beyond hi' hl' g => have := intText_unique hi hi'; have := hl _ rfl; omega
  · intro e n txt i d es cs hi hl _ ih cs' h'
    cases h' with
    | elem hi' hl' g1 g2 => have := intText_unique hi hi'; have := hl' _ rfl; omega
    | beyond hi' hl' g => exact ih g
  · intro k v cs' h'; cases h'; rfl
  · intro k v kd d es cs cs1 cs2 _ _ _ ih1 ih2 ih3 cs' h'
    cases h' with
    | cons g1 g2 g3 => exact alike_append (alike_append (ih1 g1) (ih2 g2)) (ih3 g3)
  · intro id cs' h'; cases h'; rfl
  · intro id kd key i f d es cs cs1 hk hf _ _ ih ih' cs' h'
    cases h' with
    | field hk' hf' g1 g2 =>
      cases fieldKey_unique hk hk'
      cases fieldFor_only hf hf'
      exact alike_append (ih g1) (ih' g2)
    | skip hk' hn g =>
      cases fieldKey_unique hk hk'
      exact absurd hf.2.2.1 (hn _ _ hf.1 hf.2.1)
  · intro id kd key d es cs hk hn _ ih cs' h'
    cases h' with
    | field hk' hf g1 g2 =>
      cases fieldKey_unique hk hk'
      exact absurd hf.2.2.1 (hn _ _ hf.1 hf.2.1)
    | skip hk' hn' g => exact ih g

end Verif
