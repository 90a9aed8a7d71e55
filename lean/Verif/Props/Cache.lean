import Verif.Proofs.Cache
import Verif.Props.Demo
/-
C31: the caches of prepared types under any number of goroutines and any interleaving.
-/
namespace Verif
open Spec

/-- C31 for Marshal: in every interleaving of any number of goroutines, every request to the encoder's cache that has been answered
got the encoder of its own type, or the error with which `Marshal` rejects that type; the same holds for every
entry of the map that is current. -/
theorem C31_encoder (W : World) (s : CState) (hs : CReach (encProto W) s) :
    (∀ i t r, (i, t, r) ∈ s.log → EncAnswer W t r) ∧ ∀ m t c, s.maps[s.cur]? = some m → (t, c) ∈ m → EncAnswer W t (.ok c) :=
  have h := reach_inv (encProto_sound W) hs
  ⟨fun i t r hl => encComp_answer (h.log i t r hl), fun m _ _ hm he => encComp_answer (h.entries _ m hm _ he)⟩

/-- C31 for Unmarshal. -/
theorem C31_decoder (W : World) (s : CState) (hs : CReach (decProto W) s) :
    (∀ i t r, (i, t, r) ∈ s.log → DecAnswer W t r) ∧ ∀ m t c, s.maps[s.cur]? = some m → (t, c) ∈ m → DecAnswer W t (.ok c) :=
  have h := reach_inv (decProto_sound W) hs
  ⟨fun i t r hl => decComp_answer (h.log i t r hl), fun m _ _ hm he => decComp_answer (h.entries _ m hm _ he)⟩

/-- C31: there are no data races on the maps. A map that is being filled is not the current one, nobody reads it, and no
other goroutine fills it. -/
theorem C31_no_race (P : Proto) (s : CState) (hs : CReach P s) (i b : Nat) (hb : Builds s i b) :
    b ≠ s.cur ∧ (∀ j, ¬ Reads s j b) ∧ ∀ j, Builds s j b → j = i := sep_builds (reach_sep hs) hb

/-- C31: a map that is current or that a goroutine may still read never changes, whichever goroutine makes a step. -/
theorem C31_immutable (P : Proto) (s s' : CState) (hs : CReach P s) (i : Nat) (hst : CStep P i s s') (a : Nat) (ha : a = s.cur ∨ ∃ j, Reads s j a) :
    s'.maps[a]? = s.maps[a]? ∧ ∃ m, s.maps[a]? = some m := by
  have h := reach_sep hs
  have hlt : a < s.maps.length := by
    rcases ha with rfl | ⟨j, hj⟩
    · exact h.cur
    · obtain ⟨r, h1, h2, -⟩ := reads_addr hj
      exact h.lt j r a h1 h2
  refine ⟨shared_same h hst hlt fun hb => ?_, _, List.getElem?_eq_getElem hlt⟩
  obtain ⟨h1, h2, -⟩ := sep_builds h hb
  rcases ha with ha | ⟨j, hj⟩
  · exact h1 ha
  · exact h2 j hj

/-- C31: a request that has prepared a type leaves it in the cache: when the map is published, it contains the type. -/
theorem C31_stored (W : World) (s : CState) (hs : CReach (encProto W) s) (i : Nat) (t c : Ty) (b : Nat) (rs : List Req)
    (hg : s.go i = .publish t c b :: rs) : ∃ m, s.maps[b]? = some m ∧ m.get t = some t := by
  obtain ⟨h1, m, h2, h3⟩ := (reach_inv (encProto_sound W) hs).reqs i (.publish t c b) (by rw [hg]; exact List.mem_cons_self)
  rw [h1.1] at h3
  exact ⟨m, h2, h3⟩

/-- C31: nobody waits for anybody. A goroutine in a request can always make its next step, whatever the others do; only the
compiler itself may take long. -/
theorem C31_not_blocked (P : Proto) (s : CState) (hs : CReach P s) (i : Nat) (r : Req) (rs : List Req) (hg : s.go i = r :: rs) :
    (∃ s', CStep P i s s') := by
  have h := reach_sep hs
  have hm : ∀ a, r.addr = some a → ∃ m, s.maps[a]? = some m := fun a ha =>
    ⟨_, List.getElem?_eq_getElem (h.lt i r a (by rw [hg]; exact List.mem_cons_self) ha)⟩
  cases r with
  | load t => exact ⟨_, .load hg⟩
  | look t a =>
    obtain ⟨m, h1⟩ := hm a rfl
    cases h2 : m.get t with
    | none => exact ⟨_, .miss hg h1 h2⟩
    | some c => exact ⟨_, .hit hg h1 h2⟩
  | compiling t a as => exact ⟨_, .ask (t' := t) hg⟩
  | make t a c =>
    obtain ⟨m, h1⟩ := hm a rfl
    exact ⟨_, .make hg h1 ⟨m, .refl _, rfl⟩⟩
  | fill t c b ws =>
    obtain ⟨m, h1⟩ := hm b rfl
    cases ws with
    | nil => exact ⟨_, .filled hg⟩
    | cons e ws => exact ⟨_, .write hg h1⟩
  | publish t c b => exact ⟨_, .store hg⟩

/-- The remark in C31 that entries can be lost: goroutines 0 and 1 ask for the decoders of `bool` and `string` at the same time; both get
theirs, but afterwards only `string` is cached. -/
theorem C31_lost_witness : ∃ s, CReach (decProto Demo.W) s ∧ s.log = [(1, .str, .ok .str), (0, .bool, .ok .bool)] ∧
    s.maps[s.cur]? = some [(.str, .str)] := by
  have f0 : (decProto Demo.W).fin .bool [] (.ok .bool) := ⟨rfl, 1, rfl⟩
  have f1 : (decProto Demo.W).fin .str [] (.ok .str) := ⟨rfl, 1, rfl⟩
  have h := CReach.init (P := decProto Demo.W)
  have h := h.step (.call (i := 0) (t := .bool) rfl)
  have h := h.step (.call (i := 1) (t := .str) rfl)
  have h := h.step (.load (i := 0) (t := .bool) (rs := []) rfl)
  have h := h.step (.load (i := 1) (t := .str) (rs := []) rfl)
  have h := h.step (.miss (i := 0) (t := .bool) (a := 0) (rs := []) (m := []) rfl rfl rfl)
  have h := h.step (.miss (i := 1) (t := .str) (a := 0) (rs := []) (m := []) rfl rfl rfl)
  have h := h.step (.done (i := 0) (t := .bool) (a := 0) (rs := []) rfl f0)
  have h := h.step (.done (i := 1) (t := .str) (a := 0) (rs := []) rfl f1)
  have h := h.step (.make (i := 0) (t := .bool) (a := 0) (c := .bool) (rs := []) (m := []) (ws := [(.bool, .bool)]) rfl rfl ⟨[], .refl _, rfl⟩)
  have h := h.step (.make (i := 1) (t := .str) (a := 0) (c := .str) (rs := []) (m := []) (ws := [(.str, .str)]) rfl rfl ⟨[], .refl _, rfl⟩)
  have h := h.step (.write (i := 0) (t := .bool) (c := .bool) (b := 1) (k := .bool) (v := .bool) (ws := []) (rs := []) (m := []) rfl rfl)
  have h := h.step (.write (i := 1) (t := .str) (c := .str) (b := 2) (k := .str) (v := .str) (ws := []) (rs := []) (m := []) rfl rfl)
  have h := h.step (.filled (i := 0) (t := .bool) (c := .bool) (b := 1) (rs := []) rfl)
  have h := h.step (.filled (i := 1) (t := .str) (c := .str) (b := 2) (rs := []) rfl)
  have h := h.step (.store (i := 0) (t := .bool) (c := .bool) (b := 1) (rs := []) rfl)
  have h := h.step (.store (i := 1) (t := .str) (c := .str) (b := 2) (rs := []) rfl)
  exact ⟨_, h, rfl, rfl⟩

/-- The hypotheses can be met, with a request made by the compiler: goroutine 5 asks for `[2]string`, whose preparation asks for `string`.
At the end both are answered, and the map being filled for the outer request does not contain the entry for `string`
(the map loaded at its beginning was empty). -/
example : ∃ s, CReach (encProto Demo.W) s ∧ s.go 5 = [.publish (.array 2 .str) (.array 2 .str) 2] ∧ Builds s 5 2 ∧ s.cur = 1 ∧
    s.maps = [[], [(.str, .str)], [(.array 2 .str, .array 2 .str)]] := by
  have f0 : (encProto Demo.W).fin .str [] (.ok .str) := ⟨rfl, 1, [], rfl⟩
  have f1 : (encProto Demo.W).fin (.array 2 .str) [(.str, .ok .str)] (.ok (.array 2 .str)) := ⟨rfl, 1, [], rfl⟩
  have h := CReach.init (P := encProto Demo.W)
  have h := h.step (.call (i := 5) (t := .array 2 .str) rfl)
  have h := h.step (.load (i := 5) (t := .array 2 .str) (rs := []) rfl)
  have h := h.step (.miss (i := 5) (t := .array 2 .str) (a := 0) (rs := []) (m := []) rfl rfl rfl)
  have h := h.step (.ask (i := 5) (t := .array 2 .str) (a := 0) (as := []) (t' := .str) (rs := []) rfl)
  have h := h.step (.load (i := 5) (t := .str) (rs := [.compiling (.array 2 .str) 0 []]) rfl)
  have h := h.step (.miss (i := 5) (t := .str) (a := 0) (rs := [.compiling (.array 2 .str) 0 []]) (m := []) rfl rfl rfl)
  have h := h.step (.done (i := 5) (t := .str) (a := 0) (rs := [.compiling (.array 2 .str) 0 []]) rfl f0)
  have h := h.step (.make (i := 5) (t := .str) (a := 0) (c := .str) (rs := [.compiling (.array 2 .str) 0 []]) (m := []) (ws := [(.str, .str)]) rfl rfl ⟨[], .refl _, rfl⟩)
  have h := h.step (.write (i := 5) (t := .str) (c := .str) (b := 1) (k := .str) (v := .str) (ws := []) (rs := [.compiling (.array 2 .str) 0 []]) (m := []) rfl rfl)
  have h := h.step (.filled (i := 5) (t := .str) (c := .str) (b := 1) (rs := [.compiling (.array 2 .str) 0 []]) rfl)
  have h := h.step (.store (i := 5) (t := .str) (c := .str) (b := 1) (rs := [.compiling (.array 2 .str) 0 []]) rfl)
  have h := h.step (.done (i := 5) (t := .array 2 .str) (a := 0) (rs := []) rfl f1)
  have h := h.step (.make (i := 5) (t := .array 2 .str) (a := 0) (c := .array 2 .str) (rs := []) (m := []) (ws := [(.array 2 .str, .array 2 .str)]) rfl rfl ⟨[], .refl _, rfl⟩)
  have h := h.step (.write (i := 5) (t := .array 2 .str) (c := .array 2 .str) (b := 2) (k := .array 2 .str) (v := .array 2 .str) (ws := []) (rs := []) (m := []) rfl rfl)
  have h := h.step (.filled (i := 5) (t := .array 2 .str) (c := .array 2 .str) (b := 2) (rs := []) rfl)
  exact ⟨_, h, rfl, .publish (t := .array 2 .str) (c := .array 2 .str) (List.mem_cons_self), rfl, rfl⟩

end Verif
