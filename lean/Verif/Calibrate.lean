import Verif.Traverse
import Mathlib.Tactic.Ring
import Mathlib.Tactic.FieldSimp

/-! # Two rounds of messages calibrate a junction tree -/

namespace Nip

open Res Spec

set_option linter.unusedSectionVars false

variable {K : Type} [Field K] [LinearOrder K] [IsStrictOrderedRing K] {card : Nat → Nat} {V S : Nat → List Nat}

theorem eq_off {L : List Nat} {f : Asg → K} (h : ∀ v ∈ L, Indep v f) {x z : Asg} (hz : ∀ w, w ∉ L → z w = x w) : f z = f x := by
  induction L generalizing x with
  | nil => rw [funext fun w => hz w (by simp)]
  | cons v L ih =>
    rw [← h v (List.mem_cons_self ..) x (z v)]
    refine ih (fun w hw => h w (List.mem_cons_of_mem _ hw)) ?_
    intro w hw
    by_cases e : w = v
    · subst e; simp
    · rw [Function.update_of_ne e]; exact hz w (by simp [e, hw])

/-- the marginal of clique `a` over the variables of separator `s` -/
def mg (card : Nat → Nat) (V S : Nat → List Nat) (σ : St K) (a s : Nat) : Asg → K := sumOver card (without (V a) (S s)) (σ.φ a)

theorem mg_congr {σ σ' : St K} {a s : Nat} (h : σ'.φ a = σ.φ a) : mg card V S σ' a s = mg card V S σ a s := by unfold mg; rw [h]

/-- what all contents of a tree satisfy -/
structure Reg (card : Nat → Nat) (V S : Nat → List Nat) (σ : St K) : Prop where
  φi : ∀ c v, v ∉ V c → Indep v (σ.φ c)
  ψi : ∀ s v, v ∉ S s → Indep v (σ.ψ s)
  φm : ∀ c, Modular card (σ.φ c)
  ψm : ∀ s, Modular card (σ.ψ s)
  φn : ∀ c x, 0 ≤ σ.φ c x
  ψn : ∀ s x, 0 ≤ σ.ψ s x
  pos : ∀ c, ∀ v ∈ V c, 0 < card v

theorem msg_phi (σ : St K) (a s b : Nat) :
    (msg card V S σ (a, s, b)).φ b = fun x => if σ.ψ s x = 0 then 0 else σ.φ b x * mg card V S σ a s x / σ.ψ s x := by
  simp [msg, mg]

theorem msg_phi_ne (σ : St K) {a s b e : Nat} (h : e ≠ b) : (msg card V S σ (a, s, b)).φ e = σ.φ e := by
  simp [msg, h]

theorem msg_psi (σ : St K) (a s b : Nat) : (msg card V S σ (a, s, b)).ψ s = mg card V S σ a s := by
  simp [msg, mg]

theorem msg_psi_ne (σ : St K) {a s b r : Nat} (h : r ≠ s) : (msg card V S σ (a, s, b)).ψ r = σ.ψ r := by
  simp [msg, h]

theorem mg_indep {σ : St K} (hr : Reg card V S σ) {a s v : Nat} (hv : v ∉ S s) : Indep v (mg card V S σ a s) := by
  apply sumOver_indep_of
  by_cases h : v ∈ V a
  · exact Or.inl (mem_without.mpr ⟨h, hv⟩)
  · exact Or.inr (hr.φi a v h)

theorem Reg.msg {σ : St K} (hr : Reg card V S σ) {a s b : Nat} (hb : S s ⊆ V b) : Reg card V S (msg card V S σ (a, s, b)) := by
  have hmg := fun v (hv : v ∉ S s) => mg_indep hr (a := a) hv
  refine ⟨?_, ?_, ?_, ?_, ?_, ?_, hr.pos⟩
  · intro c v hv
    by_cases e : c = b
    · subst e
      rw [msg_phi]
      intro x i
      have h1 : v ∉ S s := fun h => hv (hb h)
      simp only
      rw [hr.ψi s v h1, hr.φi c v hv, hmg v h1]
    · rw [msg_phi_ne σ e]; exact hr.φi c v hv
  · intro r v hv
    by_cases e : r = s
    · subst e; rw [msg_psi]; exact hmg v hv
    · rw [msg_psi_ne σ e]; exact hr.ψi r v hv
  · intro c
    by_cases e : c = b
    · subst e
      rw [msg_phi]
      intro x i
      simp only
      rw [hr.ψm s x, hr.φm c x, show mg card V S σ a s _ = mg card V S σ a s x from sumOver_modular (hr.φm a) x i]
    · rw [msg_phi_ne σ e]; exact hr.φm c
  · intro r
    by_cases e : r = s
    · subst e; rw [msg_psi]; exact sumOver_modular (hr.φm a)
    · rw [msg_psi_ne σ e]; exact hr.ψm r
  · intro c x
    by_cases e : c = b
    · subst e
      rw [msg_phi]
      simp only
      split
      · exact le_refl _
      · exact div_nonneg (mul_nonneg (hr.φn c x) (sumOver_nonneg (hr.φn a) x)) (hr.ψn s x)
    · rw [msg_phi_ne σ e]; exact hr.φn c x
  · intro r x
    by_cases e : r = s
    · subst e; rw [msg_psi]; exact sumOver_nonneg (hr.φn a) x
    · rw [msg_psi_ne σ e]; exact hr.ψn r x

theorem Reg.foldl {ms : List (Nat × Nat × Nat)} : ∀ {σ : St K}, Reg card V S σ → (∀ m ∈ ms, S m.2.1 ⊆ V m.2.2) →
    Reg card V S (ms.foldl (Nip.msg card V S) σ) := by
  induction ms with
  | nil => intro σ h _; exact h
  | cons m ms ih =>
    intro σ h hm
    rw [List.foldl_cons]
    obtain ⟨a, s, b⟩ := m
    exact ih (h.msg (hm (a, s, b) (List.mem_cons_self ..))) (fun m' hm' => hm m' (List.mem_cons_of_mem _ hm'))

theorem foldl_phi {ms : List (Nat × Nat × Nat)} {e : Nat} : ∀ (σ : St K), (∀ m ∈ ms, m.2.2 ≠ e) →
    (ms.foldl (msg card V S) σ).φ e = σ.φ e := by
  induction ms with
  | nil => intro σ _; rfl
  | cons m ms ih =>
    intro σ h
    obtain ⟨a, s, b⟩ := m
    rw [List.foldl_cons, ih _ (fun m' hm' => h m' (List.mem_cons_of_mem _ hm'))]
    exact msg_phi_ne σ (fun e' => h (a, s, b) (List.mem_cons_self ..) e'.symm)

theorem foldl_psi {ms : List (Nat × Nat × Nat)} {r : Nat} : ∀ (σ : St K), (∀ m ∈ ms, m.2.1 ≠ r) →
    (ms.foldl (msg card V S) σ).ψ r = σ.ψ r := by
  induction ms with
  | nil => intro σ _; rfl
  | cons m ms ih =>
    intro σ h
    obtain ⟨a, s, b⟩ := m
    rw [List.foldl_cons, ih _ (fun m' hm' => h m' (List.mem_cons_of_mem _ hm'))]
    exact msg_psi_ne σ (fun e' => h (a, s, b) (List.mem_cons_self ..) e'.symm)

theorem msg_zero (σ : St K) (m : Nat × Nat × Nat) {e : Nat} {x : Asg} (h : σ.φ e x = 0) : (msg card V S σ m).φ e x = 0 := by
  obtain ⟨a, s, b⟩ := m
  by_cases hb : e = b
  · subst hb; rw [msg_phi]; simp only; rw [h]; simp
  · rw [msg_phi_ne σ hb]; exact h

theorem foldl_zero {ms : List (Nat × Nat × Nat)} {e : Nat} {x : Asg} : ∀ (σ : St K), σ.φ e x = 0 →
    (ms.foldl (msg card V S) σ).φ e x = 0 := by
  induction ms with
  | nil => intro σ h; exact h
  | cons m ms ih => intro σ h; rw [List.foldl_cons]; exact ih _ (msg_zero σ m h)

/-! ### the messages of a rooted tree -/

/-- separators consist of variables of both cliques -/
def Fits (V S : Nat → List Nat) : Nat → Forest → Prop
  | _, .nil => True
  | c, .cons s d k r => S s ⊆ V c ∧ S s ⊆ V d ∧ Fits V S d k ∧ Fits V S c r

theorem collectMsgs_mem {c : Nat} {F : Forest} : ∀ m ∈ collectMsgs c F, m.2.2 ∈ c :: F.nodes ∧ m.2.1 ∈ F.seps := by
  induction F generalizing c with
  | nil => intro m hm; cases hm
  | cons s d k r ih1 ih2 =>
    intro m hm
    simp only [collectMsgs, List.mem_append, List.mem_cons] at hm
    simp only [Forest.nodes, Forest.seps, List.mem_cons, List.mem_append]
    rcases hm with hm | rfl | hm
    · obtain ⟨h1, h2⟩ := ih1 m hm
      exact ⟨Or.inr (by rcases List.mem_cons.mp h1 with h | h; exacts [Or.inl h, Or.inr (Or.inl h)]), Or.inr (Or.inl h2)⟩
    · exact ⟨Or.inl rfl, Or.inl rfl⟩
    · obtain ⟨h1, h2⟩ := ih2 m hm
      exact ⟨by rcases List.mem_cons.mp h1 with h | h; exacts [Or.inl h, Or.inr (Or.inr (Or.inr h))], Or.inr (Or.inr h2)⟩

theorem topMsgs_mem {c : Nat} {F : Forest} : ∀ m ∈ topMsgs c F, m.2.2 ∈ F.nodes ∧ m.2.1 ∈ F.seps := by
  induction F generalizing c with
  | nil => intro m hm; cases hm
  | cons s d k r ih1 ih2 =>
    intro m hm
    simp only [topMsgs, List.mem_cons] at hm
    simp only [Forest.nodes, Forest.seps, List.mem_cons, List.mem_append]
    rcases hm with rfl | hm
    · exact ⟨Or.inl rfl, Or.inl rfl⟩
    · obtain ⟨h1, h2⟩ := ih2 m hm
      exact ⟨Or.inr (Or.inr h1), Or.inr (Or.inr h2)⟩

/-- `distSub` does not touch the separators at the top, nor the cliques there -/
theorem distSub_mem {F : Forest} : ∀ m ∈ distSub F, m.2.2 ∈ F.nodes ∧ m.2.1 ∈ F.seps := by
  induction F with
  | nil => intro m hm; cases hm
  | cons s d k r ih1 ih2 =>
    intro m hm
    simp only [distSub, List.mem_append] at hm
    simp only [Forest.nodes, Forest.seps, List.mem_cons, List.mem_append]
    rcases hm with (hm | hm) | hm
    · obtain ⟨h1, h2⟩ := topMsgs_mem m hm
      exact ⟨Or.inr (Or.inl h1), Or.inr (Or.inl h2)⟩
    · obtain ⟨h1, h2⟩ := ih1 m hm
      exact ⟨Or.inr (Or.inl h1), Or.inr (Or.inl h2)⟩
    · obtain ⟨h1, h2⟩ := ih2 m hm
      exact ⟨Or.inr (Or.inr h1), Or.inr (Or.inr h2)⟩

theorem collectMsgs_fits {c : Nat} {F : Forest} (h : Fits V S c F) : ∀ m ∈ collectMsgs c F, S m.2.1 ⊆ V m.2.2 := by
  induction F generalizing c with
  | nil => intro m hm; cases hm
  | cons s d k r ih1 ih2 =>
    obtain ⟨h1, h2, h3, h4⟩ := h
    intro m hm
    simp only [collectMsgs, List.mem_append, List.mem_cons] at hm
    rcases hm with hm | rfl | hm
    · exact ih1 h3 m hm
    · exact h1
    · exact ih2 h4 m hm

theorem topMsgs_fits {c : Nat} {F : Forest} (h : Fits V S c F) : ∀ m ∈ topMsgs c F, S m.2.1 ⊆ V m.2.2 := by
  induction F generalizing c with
  | nil => intro m hm; cases hm
  | cons s d k r ih1 ih2 =>
    obtain ⟨h1, h2, h3, h4⟩ := h
    intro m hm
    simp only [topMsgs, List.mem_cons] at hm
    rcases hm with rfl | hm
    · exact h2
    · exact ih2 h4 m hm

theorem distSub_fits {c : Nat} {F : Forest} (h : Fits V S c F) : ∀ m ∈ distSub F, S m.2.1 ⊆ V m.2.2 := by
  induction F generalizing c with
  | nil => intro m hm; cases hm
  | cons s d k r ih1 ih2 =>
    obtain ⟨h1, h2, h3, h4⟩ := h
    intro m hm
    simp only [distSub, List.mem_append] at hm
    rcases hm with (hm | hm) | hm
    · exact topMsgs_fits h3 m hm
    · exact ih1 h3 m hm
    · exact ih2 h4 m hm

/-- after collecting: separators hold the marginals of the cliques below; where a separator is zero, so is the clique above -/
def Up (card : Nat → Nat) (V S : Nat → List Nat) (σ : St K) : Nat → Forest → Prop
  | _, .nil => True
  | c, .cons s d k r => σ.ψ s = mg card V S σ d s ∧ (∀ x, σ.ψ s x = 0 → σ.φ c x = 0) ∧ Up card V S σ d k ∧ Up card V S σ c r

/-- neighbouring cliques agree -/
def Full (card : Nat → Nat) (V S : Nat → List Nat) (σ : St K) : Nat → Forest → Prop
  | _, .nil => True
  | c, .cons s d k r => σ.ψ s = mg card V S σ c s ∧ σ.ψ s = mg card V S σ d s ∧ Full card V S σ d k ∧ Full card V S σ c r

/-- the situation between the two loops of `distribute` -/
def Mid (card : Nat → Nat) (V S : Nat → List Nat) (σ : St K) : Nat → Forest → Prop
  | _, .nil => True
  | c, .cons s d k r => σ.ψ s = mg card V S σ c s ∧ σ.ψ s = mg card V S σ d s ∧ Up card V S σ d k ∧ Mid card V S σ c r

theorem Up.frame {σ σ' : St K} {c : Nat} {F : Forest} (h : Up card V S σ c F) (h1 : ∀ d ∈ F.nodes, σ'.φ d = σ.φ d)
    (h2 : ∀ s ∈ F.seps, σ'.ψ s = σ.ψ s) (h3 : ∀ x, σ.φ c x = 0 → σ'.φ c x = 0) : Up card V S σ' c F := by
  induction F generalizing c with
  | nil => trivial
  | cons s d k r ih1 ih2 =>
    obtain ⟨g1, g2, g3, g4⟩ := h
    simp only [Forest.nodes, Forest.seps, List.mem_cons, List.mem_append] at h1 h2
    refine ⟨?_, ?_, ih1 g3 ?_ ?_ ?_, ih2 g4 ?_ ?_ h3⟩
    · rw [h2 s (Or.inl rfl), g1, mg_congr (h1 d (Or.inl rfl))]
    · intro x hx; rw [h2 s (Or.inl rfl)] at hx; exact h3 x (g2 x hx)
    · exact fun e he => h1 e (Or.inr (Or.inl he))
    · exact fun e he => h2 e (Or.inr (Or.inl he))
    · intro x hx; rw [h1 d (Or.inl rfl)]; exact hx
    · exact fun e he => h1 e (Or.inr (Or.inr he))
    · exact fun e he => h2 e (Or.inr (Or.inr he))

theorem Mid.frame {σ σ' : St K} {c : Nat} {F : Forest} (h : Mid card V S σ c F) (h1 : ∀ d ∈ F.nodes, σ'.φ d = σ.φ d)
    (h2 : ∀ s ∈ F.seps, σ'.ψ s = σ.ψ s) (h3 : σ'.φ c = σ.φ c) : Mid card V S σ' c F := by
  induction F generalizing c with
  | nil => trivial
  | cons s d k r ih1 ih2 =>
    obtain ⟨g1, g2, g3, g4⟩ := h
    simp only [Forest.nodes, Forest.seps, List.mem_cons, List.mem_append] at h1 h2
    refine ⟨?_, ?_, g3.frame ?_ ?_ ?_, ih2 g4 ?_ ?_ h3⟩
    · rw [h2 s (Or.inl rfl), g1, mg_congr h3]
    · rw [h2 s (Or.inl rfl), g2, mg_congr (h1 d (Or.inl rfl))]
    · exact fun e he => h1 e (Or.inr (Or.inl he))
    · exact fun e he => h2 e (Or.inr (Or.inl he))
    · intro x hx; rw [h1 d (Or.inl rfl)]; exact hx
    · exact fun e he => h1 e (Or.inr (Or.inr he))
    · exact fun e he => h2 e (Or.inr (Or.inr he))

theorem Full.frame {σ σ' : St K} {c : Nat} {F : Forest} (h : Full card V S σ c F) (h1 : ∀ d ∈ F.nodes, σ'.φ d = σ.φ d)
    (h2 : ∀ s ∈ F.seps, σ'.ψ s = σ.ψ s) (h3 : σ'.φ c = σ.φ c) : Full card V S σ' c F := by
  induction F generalizing c with
  | nil => trivial
  | cons s d k r ih1 ih2 =>
    obtain ⟨g1, g2, g3, g4⟩ := h
    simp only [Forest.nodes, Forest.seps, List.mem_cons, List.mem_append] at h1 h2
    refine ⟨?_, ?_, ih1 g3 ?_ ?_ ?_, ih2 g4 ?_ ?_ h3⟩
    · rw [h2 s (Or.inl rfl), g1, mg_congr h3]
    · rw [h2 s (Or.inl rfl), g2, mg_congr (h1 d (Or.inl rfl))]
    · exact fun e he => h1 e (Or.inr (Or.inl he))
    · exact fun e he => h2 e (Or.inr (Or.inl he))
    · rw [h1 d (Or.inl rfl)]
    · exact fun e he => h1 e (Or.inr (Or.inr he))
    · exact fun e he => h2 e (Or.inr (Or.inr he))

/-- nothing occurs twice in the tree -/
structure Dist (c : Nat) (F : Forest) : Prop where
  nodes : (c :: F.nodes).Nodup
  seps : F.seps.Nodup

theorem Dist.parts {c s d : Nat} {k r : Forest} (h : Dist c (.cons s d k r)) :
    Dist d k ∧ Dist c r ∧ c ≠ d ∧ c ∉ k.nodes ∧ c ∉ r.nodes ∧ d ∉ k.nodes ∧ d ∉ r.nodes ∧ (∀ e ∈ k.nodes, e ∉ r.nodes) ∧
      s ∉ k.seps ∧ s ∉ r.seps ∧ (∀ e ∈ k.seps, e ∉ r.seps) := by
  obtain ⟨hn, hs⟩ := h
  simp only [Forest.nodes, List.nodup_cons, List.mem_append, List.mem_cons, not_or, List.nodup_append] at hn
  simp only [Forest.seps, List.nodup_cons, List.mem_append, not_or, List.nodup_append] at hs
  obtain ⟨⟨a1, a2, a3⟩, ⟨a4, a5⟩, a6, a7, a8⟩ := hn
  obtain ⟨⟨b1, b2⟩, b3, b4, b5⟩ := hs
  exact ⟨⟨List.nodup_cons.mpr ⟨a4, a6⟩, b3⟩, ⟨List.nodup_cons.mpr ⟨a3, a7⟩, b4⟩, a1, a2, a3, a4, a5, fun e h1 h2 => a8 e h1 e h2 rfl,
    b1, b2, fun e h1 h2 => b5 e h1 e h2 rfl⟩

theorem collect_up {F : Forest} : ∀ {c : Nat} (σ : St K), Dist c F → Up card V S ((collectMsgs c F).foldl (msg card V S) σ) c F := by
  induction F with
  | nil => intros; trivial
  | cons s d k r ih1 ih2 =>
    intro c σ hd
    obtain ⟨p1, p2, hcd, hck, hcr, hdk, hdr, hkr, hsk, hsr, hskr⟩ := hd.parts
    simp only [collectMsgs, List.foldl_append, List.foldl_cons]
    obtain ⟨σ1, h1⟩ : ∃ σ1, σ1 = (collectMsgs d k).foldl (msg card V S) σ := ⟨_, rfl⟩
    have u1 := ih1 σ p1
    rw [← h1] at u1 ⊢
    obtain ⟨σ2, h2⟩ : ∃ σ2, σ2 = msg card V S σ1 (d, s, c) := ⟨_, rfl⟩
    rw [← h2]
    have u2 := ih2 σ2 p2
    obtain ⟨σ3, h3⟩ : ∃ σ3, σ3 = (collectMsgs c r).foldl (msg card V S) σ2 := ⟨_, rfl⟩
    rw [← h3] at u2 ⊢
    have fφ : ∀ e, e ≠ c → e ∉ r.nodes → σ3.φ e = σ1.φ e := by
      intro e he hr
      rw [h3, foldl_phi, h2, msg_phi_ne _ he]
      intro m hm h
      have := (collectMsgs_mem m hm).1
      rw [h] at this
      rcases List.mem_cons.mp this with h | h
      · exact he h
      · exact hr h
    have fψ : ∀ e, e ∉ r.seps → σ3.ψ e = σ2.ψ e := by
      intro e hr
      rw [h3, foldl_psi]
      intro m hm h
      exact hr (h ▸ (collectMsgs_mem m hm).2)
    refine ⟨?_, ?_, ?_, u2⟩
    · rw [fψ s hsr, h2, msg_psi]
      exact (mg_congr (fφ d (Ne.symm hcd) hdr)).symm
    · intro x hx
      rw [fψ s hsr, h2, msg_psi] at hx
      rw [h3]
      apply foldl_zero
      rw [h2, msg_phi]
      simp only
      rw [hx]; simp
    · refine u1.frame ?_ ?_ ?_
      · exact fun e he => fφ e (ne_of_mem_of_not_mem he hck) (hkr e he)
      · intro e he
        rw [fψ e (hskr e he), h2, msg_psi_ne _ (ne_of_mem_of_not_mem he hsk)]
      · intro x hx; rw [fφ d (Ne.symm hcd) hdr]; exact hx

theorem top_mid {F : Forest} : ∀ {c : Nat} (σ : St K), Dist c F → Fits V S c F → Reg card V S σ → Up card V S σ c F →
    Mid card V S ((topMsgs c F).foldl (msg card V S) σ) c F := by
  induction F with
  | nil => intros; trivial
  | cons s d k r ih1 ih2 =>
    intro c σ hd hf hr hu
    obtain ⟨p1, p2, hcd, hck, hcr, hdk, hdr, hkr, hsk, hsr, hskr⟩ := hd.parts
    obtain ⟨f1, f2, f3, f4⟩ := hf
    obtain ⟨g1, g2, g3, g4⟩ := hu
    simp only [topMsgs, List.foldl_cons]
    obtain ⟨σ1, h1⟩ : ∃ σ1, σ1 = msg card V S σ (c, s, d) := ⟨_, rfl⟩
    rw [← h1]
    have r1 : Reg card V S σ1 := by rw [h1]; exact hr.msg f2
    have c1 : σ1.φ c = σ.φ c := by rw [h1, msg_phi_ne _ hcd]
    have u1 : Up card V S σ1 c r := by
      refine g4.frame ?_ ?_ ?_
      · intro e he; rw [h1, msg_phi_ne _ (ne_of_mem_of_not_mem he hdr)]
      · intro e he; rw [h1, msg_psi_ne _ (ne_of_mem_of_not_mem he hsr)]
      · intro x hx; rw [c1]; exact hx
    have u2 := ih2 σ1 p2 f4 r1 u1
    obtain ⟨σ2, h2⟩ : ∃ σ2, σ2 = (topMsgs c r).foldl (msg card V S) σ1 := ⟨_, rfl⟩
    rw [← h2] at u2 ⊢
    have fφ : ∀ e, e ∉ r.nodes → σ2.φ e = σ1.φ e := by
      intro e he
      rw [h2, foldl_phi]
      intro m hm h
      exact he (h ▸ (topMsgs_mem m hm).1)
    have fψ : ∀ e, e ∉ r.seps → σ2.ψ e = σ1.ψ e := by
      intro e he
      rw [h2, foldl_psi]
      intro m hm h
      exact he (h ▸ (topMsgs_mem m hm).2)
    have e1 : σ1.ψ s = mg card V S σ c s := by rw [h1, msg_psi]
    have e2 : σ1.φ d = fun x => if σ.ψ s x = 0 then 0 else σ.φ d x * σ1.ψ s x / σ.ψ s x := by rw [e1, h1, msg_phi]
    have key : σ1.ψ s = mg card V S σ1 d s := by
      funext x
      unfold mg
      have hoff : ∀ v ∈ without (V d) (S s), v ∉ S s := fun v hv => (mem_without.mp hv).2
      by_cases hx : σ.ψ s x = 0
      · rw [sumOver_eq_zero, e1]
        · unfold mg
          apply sumOver_eq_zero
          intro z hz
          apply g2
          rw [eq_off (fun v hv => hr.ψi s v (mem_without.mp hv).2) hz]; exact hx
        · intro z hz
          rw [e2]
          simp only
          rw [if_pos]
          rw [eq_off (fun v hv => hr.ψi s v (hoff v hv)) hz]; exact hx
      · have : ∀ z, (∀ w, w ∉ without (V d) (S s) → z w = x w) → σ1.φ d z = σ.φ d z * (fun _ => σ1.ψ s x / σ.ψ s x) z := by
          intro z hz
          rw [e2]
          simp only
          rw [eq_off (fun v hv => hr.ψi s v (hoff v hv)) hz, eq_off (fun v hv => r1.ψi s v (hoff v hv)) hz, if_neg hx, mul_div_assoc]
        rw [sumOver_congr this, sumOver_mul_right (fun v _ x i => rfl)]
        have g1' := congrFun g1 x
        unfold mg at g1'
        rw [← g1', mul_div_cancel₀ _ hx]
    refine ⟨?_, ?_, ?_, u2⟩
    · rw [fψ s hsr, mg_congr (fφ c hcr), e1, mg_congr c1]
    · rw [fψ s hsr, mg_congr (fφ d hdr)]; exact key
    · refine g3.frame ?_ ?_ ?_
      · intro e he; rw [fφ e (hkr e he), h1, msg_phi_ne _ (ne_of_mem_of_not_mem he hdk)]
      · intro e he; rw [fψ e (hskr e he), h1, msg_psi_ne _ (ne_of_mem_of_not_mem he hsk)]
      · intro x hx
        rw [fφ d hdr, h1]; exact msg_zero _ _ hx

theorem sub_full {F : Forest} : ∀ {c : Nat} (σ : St K), Dist c F → Fits V S c F → Reg card V S σ → Mid card V S σ c F →
    Full card V S ((distSub F).foldl (msg card V S) σ) c F := by
  induction F with
  | nil => intros; trivial
  | cons s d k r ih1 ih2 =>
    intro c σ hd hf hr hm
    obtain ⟨p1, p2, hcd, hck, hcr, hdk, hdr, hkr, hsk, hsr, hskr⟩ := hd.parts
    obtain ⟨f1, f2, f3, f4⟩ := hf
    obtain ⟨g1, g2, g3, g4⟩ := hm
    simp only [distSub, List.foldl_append]
    obtain ⟨σ1, h1⟩ : ∃ σ1, σ1 = (topMsgs d k).foldl (msg card V S) σ := ⟨_, rfl⟩
    have m1 := top_mid σ p1 f3 hr g3
    rw [← h1] at m1 ⊢
    have r1 : Reg card V S σ1 := by rw [h1]; exact hr.foldl (topMsgs_fits f3)
    obtain ⟨σ2, h2⟩ : ∃ σ2, σ2 = (distSub k).foldl (msg card V S) σ1 := ⟨_, rfl⟩
    have m2 := ih1 σ1 p1 f3 r1 m1
    rw [← h2] at m2 ⊢
    have r2 : Reg card V S σ2 := by rw [h2]; exact r1.foldl (distSub_fits f3)
    have fφ2 : ∀ e, e ∉ k.nodes → σ2.φ e = σ.φ e := by
      intro e he
      rw [h2, foldl_phi _ (fun m hm => ne_of_mem_of_not_mem (distSub_mem m hm).1 he), h1, foldl_phi _ (fun m hm => ne_of_mem_of_not_mem (topMsgs_mem m hm).1 he)]
    have fψ2 : ∀ e, e ∉ k.seps → σ2.ψ e = σ.ψ e := by
      intro e he
      rw [h2, foldl_psi _ (fun m hm => ne_of_mem_of_not_mem (distSub_mem m hm).2 he), h1, foldl_psi _ (fun m hm => ne_of_mem_of_not_mem (topMsgs_mem m hm).2 he)]
    have u3 := ih2 σ2 p2 f4 r2 (g4.frame (fun e he => fφ2 e (fun hk => hkr e hk he)) (fun e he => fψ2 e (fun hk => hskr e hk he)) (fφ2 c hck))
    obtain ⟨σ3, h3⟩ : ∃ σ3, σ3 = (distSub r).foldl (msg card V S) σ2 := ⟨_, rfl⟩
    rw [← h3] at u3 ⊢
    have fφ3 : ∀ e, e ∉ r.nodes → σ3.φ e = σ2.φ e := by
      intro e he
      rw [h3, foldl_phi _ (fun m hm => ne_of_mem_of_not_mem (distSub_mem m hm).1 he)]
    have fψ3 : ∀ e, e ∉ r.seps → σ3.ψ e = σ2.ψ e := by
      intro e he
      rw [h3, foldl_psi _ (fun m hm => ne_of_mem_of_not_mem (distSub_mem m hm).2 he)]
    refine ⟨?_, ?_, ?_, u3⟩
    · rw [fψ3 s hsr, fψ2 s hsk, g1, mg_congr ((fφ3 c hcr).trans (fφ2 c hck))]
    · rw [fψ3 s hsr, fψ2 s hsk, g2, mg_congr ((fφ3 d hdr).trans (fφ2 d hdk))]
    · exact m2.frame (fun e he => fφ3 e (hkr e he)) (fun e he => fψ3 e (hskr e he)) (fφ3 d hdr)

/-- **collecting and distributing makes neighbours agree** -/
theorem rounds_full {c : Nat} {F : Forest} (σ : St K) (hd : Dist c F) (hf : Fits V S c F) (hr : Reg card V S σ) :
    Full card V S ((topMsgs c F ++ distSub F).foldl (msg card V S) ((collectMsgs c F).foldl (msg card V S) σ)) c F := by
  rw [List.foldl_append]
  have r1 := hr.foldl (collectMsgs_fits hf)
  exact sub_full _ hd hf (r1.foldl (topMsgs_fits hf)) (top_mid _ hd hf r1 (collect_up σ hd))

/-! ### the function represented by the tree -/

/-- `T` is the product of the cliques divided by the product of the separators -/
structure Repr (n m : Nat) (σ : St K) (T : Asg → K) : Prop where
  prod : ∀ x, ∏ c ∈ Finset.range n, σ.φ c x = T x * ∏ s ∈ Finset.range m, σ.ψ s x
  zφ : ∀ c, c < n → ∀ x, σ.φ c x = 0 → T x = 0
  zψ : ∀ s, s < m → ∀ x, σ.ψ s x = 0 → T x = 0

theorem prod_at {n b : Nat} (hb : b < n) (f g : Nat → K) (h : ∀ c, c ≠ b → g c = f c) {u : K} (hu : g b = f b * u) :
    ∏ c ∈ Finset.range n, g c = (∏ c ∈ Finset.range n, f c) * u := by
  rw [← Finset.mul_prod_erase _ _ (Finset.mem_range.mpr hb), ← Finset.mul_prod_erase (Finset.range n) f (Finset.mem_range.mpr hb), hu,
    Finset.prod_congr rfl (fun c hc => h c (Finset.ne_of_mem_erase hc))]
  ring

theorem Repr.msg {n m : Nat} {σ : St K} {T : Asg → K} (h : Repr n m σ T) (hr : Reg card V S σ) {a s b : Nat} (ha : a < n) (hs : s < m) (hb : b < n) :
    Repr n m (msg card V S σ (a, s, b)) T := by
  have hz : ∀ x, mg card V S σ a s x = 0 → T x = 0 := by
    intro x hx
    exact h.zφ a ha x (sumOver_zero (hr.φn a) (hr.φm a) (fun v hv => hr.pos a v (mem_without.mp hv).1) hx)
  refine ⟨?_, ?_, ?_⟩
  · intro x
    by_cases hx : σ.ψ s x = 0
    · rw [h.zψ s hs x hx, zero_mul]
      apply Finset.prod_eq_zero (Finset.mem_range.mpr hb)
      rw [msg_phi]; simp [hx]
    · rw [prod_at hb (fun c => σ.φ c x) (fun c => (Nip.msg card V S σ (a, s, b)).φ c x) (u := mg card V S σ a s x / σ.ψ s x)
          (fun c hc => by rw [msg_phi_ne _ hc]) (by rw [msg_phi]; simp only; rw [if_neg hx, mul_div_assoc]),
        prod_at hs (fun r => σ.ψ r x) (fun r => (Nip.msg card V S σ (a, s, b)).ψ r x) (u := mg card V S σ a s x / σ.ψ s x)
          (fun c hc => by rw [msg_psi_ne _ hc]) (by rw [msg_psi, mul_div_cancel₀ _ hx]), h.prod x, mul_assoc]
  · intro c hc x hx
    by_cases e : c = b
    · subst e
      rw [msg_phi] at hx
      simp only at hx
      by_cases h0 : σ.ψ s x = 0
      · exact h.zψ s hs x h0
      · rw [if_neg h0, div_eq_zero_iff, mul_eq_zero] at hx
        rcases hx with (hx | hx) | hx
        · exact h.zφ c hc x hx
        · exact hz x hx
        · exact absurd hx h0
    · rw [msg_phi_ne _ e] at hx; exact h.zφ c hc x hx
  · intro r hr' x hx
    by_cases e : r = s
    · subst e; rw [msg_psi] at hx; exact hz x hx
    · rw [msg_psi_ne _ e] at hx; exact h.zψ r hr' x hx

theorem Repr.foldl {n m : Nat} {T : Asg → K} {ms : List (Nat × Nat × Nat)} : ∀ {σ : St K}, Repr n m σ T → Reg card V S σ →
    (∀ e ∈ ms, S e.2.1 ⊆ V e.2.2) → (∀ e ∈ ms, e.1 < n ∧ e.2.1 < m ∧ e.2.2 < n) → Repr n m (ms.foldl (Nip.msg card V S) σ) T := by
  induction ms with
  | nil => intro σ h _ _ _; exact h
  | cons e ms ih =>
    intro σ h hr hf hl
    rw [List.foldl_cons]
    obtain ⟨a, s, b⟩ := e
    obtain ⟨h1, h2, h3⟩ := hl (a, s, b) (List.mem_cons_self ..)
    exact ih (h.msg hr h1 h2 h3) (hr.msg (hf (a, s, b) (List.mem_cons_self ..))) (fun m' hm' => hf m' (List.mem_cons_of_mem _ hm'))
      (fun m' hm' => hl m' (List.mem_cons_of_mem _ hm'))

/-! ### agreement of neighbours and the represented function -/

/-- running intersection, for a rooted tree -/
def RipF (V S : Nat → List Nat) : Nat → Forest → Prop
  | _, .nil => True
  | c, .cons s d k r => (∀ v e e', e ∈ d :: k.nodes → e' ∉ d :: k.nodes → v ∈ V e → v ∈ V e' → v ∈ S s) ∧ RipF V S d k ∧ RipF V S c r

/-- the variables not yet in the clique above -/
def fresh (V S : Nat → List Nat) : Forest → List Nat
  | .nil => []
  | .cons s d k r => without (V d) (S s) ++ (fresh V S k ++ fresh V S r)

def ratio (σ : St K) : Forest → Asg → K
  | .nil, _ => 1
  | .cons s d k r, x => σ.φ d x / σ.ψ s x * (ratio σ k x * ratio σ r x)

def ind (σ : St K) : Forest → Asg → K
  | .nil, _ => 1
  | .cons s _ _ r, x => (if σ.ψ s x = 0 then 0 else 1) * ind σ r x

theorem fresh_spec {c : Nat} {F : Forest} (h : RipF V S c F) {v : Nat} (hv : v ∈ fresh V S F) :
    (∀ e, e ∉ F.nodes → v ∉ V e) ∧ ∃ e ∈ F.nodes, v ∈ V e := by
  induction F generalizing c with
  | nil => cases hv
  | cons s d k r ih1 ih2 =>
    obtain ⟨h1, h2, h3⟩ := h
    simp only [fresh, List.mem_append] at hv
    simp only [Forest.nodes, List.mem_cons, List.mem_append, not_or]
    rcases hv with hv | hv | hv
    · obtain ⟨a1, a2⟩ := mem_without.mp hv
      refine ⟨?_, d, Or.inl rfl, a1⟩
      rintro e ⟨e1, e2, _⟩ hve
      exact a2 (h1 v d e (List.mem_cons_self ..) (by simp [e1, e2]) a1 hve)
    · obtain ⟨b1, e, b2, b3⟩ := ih1 h2 hv
      exact ⟨fun e he => b1 e he.2.1, e, Or.inr (Or.inl b2), b3⟩
    · obtain ⟨b1, e, b2, b3⟩ := ih2 h3 hv
      exact ⟨fun e he => b1 e he.2.2, e, Or.inr (Or.inr b2), b3⟩

theorem fresh_nodup {c : Nat} {F : Forest} (h : RipF V S c F) (hd : Dist c F) (hV : ∀ e, (V e).Nodup) : (V c ++ fresh V S F).Nodup := by
  induction F generalizing c with
  | nil => simpa [fresh] using hV c
  | cons s d k r ih1 ih2 =>
    obtain ⟨p1, p2, hcd, hck, hcr, hdk, hdr, hkr, hsk, hsr, hskr⟩ := hd.parts
    obtain ⟨h1, h2, h3⟩ := h
    have i1 := ih1 h2 p1
    have i2 := ih2 h3 p2
    rw [List.nodup_append] at i1 i2
    simp only [fresh]
    rw [List.nodup_append]
    refine ⟨hV c, ?_, ?_⟩
    · rw [List.nodup_append]
      refine ⟨(hV d).filter _, ?_, ?_⟩
      · rw [List.nodup_append]
        refine ⟨i1.2.1, i2.2.1, ?_⟩
        rintro v hk w hr rfl
        obtain ⟨_, e, e1, e2⟩ := fresh_spec h2 hk
        exact (fresh_spec h3 hr).1 e (hkr e e1) e2
      · rintro v hv w hw rfl
        have hv' := (mem_without.mp hv).1
        rcases List.mem_append.mp hw with hw | hw
        · exact (fresh_spec h2 hw).1 d hdk hv'
        · exact (fresh_spec h3 hw).1 d hdr hv'
    · rintro v hv w hw rfl
      have hw' : v ∈ fresh V S (.cons s d k r) := hw
      refine (fresh_spec (V := V) (S := S) (c := c) (F := .cons s d k r) ⟨h1, h2, h3⟩ hw').1 c ?_ hv
      exact (List.nodup_cons.mp hd.nodes).1

theorem fresh_covers {c : Nat} {F : Forest} (hf : Fits V S c F) {v e : Nat} (he : e ∈ c :: F.nodes) (hv : v ∈ V e) : v ∈ V c ++ fresh V S F := by
  induction F generalizing c with
  | nil =>
    simp only [Forest.nodes, List.mem_cons, List.not_mem_nil, or_false] at he
    subst he; exact List.mem_append_left _ hv
  | cons s d k r ih1 ih2 =>
    obtain ⟨f1, f2, f3, f4⟩ := hf
    simp only [Forest.nodes, List.mem_cons, List.mem_append] at he
    simp only [fresh, List.mem_append]
    have hk : e ∈ d :: k.nodes → v ∈ V c ∨ v ∈ without (V d) (S s) ∨ v ∈ fresh V S k ∨ v ∈ fresh V S r := by
      intro h
      rcases List.mem_append.mp (ih1 f3 h) with h | h
      · by_cases hs : v ∈ S s
        · exact Or.inl (f1 hs)
        · exact Or.inr (Or.inl (mem_without.mpr ⟨h, hs⟩))
      · exact Or.inr (Or.inr (Or.inl h))
    have hr : e ∈ c :: r.nodes → v ∈ V c ∨ v ∈ without (V d) (S s) ∨ v ∈ fresh V S k ∨ v ∈ fresh V S r := by
      intro h
      rcases List.mem_append.mp (ih2 f4 h) with h | h
      · exact Or.inl h
      · exact Or.inr (Or.inr (Or.inr h))
    rcases he with h | h | h | h
    · exact hr (List.mem_cons.mpr (Or.inl h))
    · exact hk (List.mem_cons.mpr (Or.inl h))
    · exact hk (List.mem_cons.mpr (Or.inr h))
    · exact hr (List.mem_cons.mpr (Or.inr h))

theorem ratio_indep {σ : St K} (hr : Reg card V S σ) {v c : Nat} {F : Forest} (hf : Fits V S c F) (h : ∀ e ∈ F.nodes, v ∉ V e) :
    Indep v (ratio σ F) := by
  induction F generalizing c with
  | nil => intro x i; rfl
  | cons s d k r ih1 ih2 =>
    obtain ⟨f1, f2, f3, f4⟩ := hf
    simp only [Forest.nodes, List.mem_cons, List.mem_append] at h
    intro x i
    simp only [ratio]
    rw [hr.φi d v (h d (Or.inl rfl)), hr.ψi s v (fun hs => h d (Or.inl rfl) (f2 hs)),
      ih1 f3 (fun e he => h e (Or.inr (Or.inl he))), ih2 f4 (fun e he => h e (Or.inr (Or.inr he)))]

theorem ind_indep {σ : St K} (hr : Reg card V S σ) {v c : Nat} {F : Forest} (hf : Fits V S c F) (h : ∀ e ∈ F.nodes, v ∉ V e) :
    Indep v (ind σ F) := by
  induction F generalizing c with
  | nil => intro x i; rfl
  | cons s d k r ih1 ih2 =>
    obtain ⟨f1, f2, f3, f4⟩ := hf
    simp only [Forest.nodes, List.mem_cons, List.mem_append] at h
    intro x i
    simp only [ind]
    rw [hr.ψi s v (fun hs => h d (Or.inl rfl) (f2 hs)), ih2 f4 (fun e he => h e (Or.inr (Or.inr he)))]

theorem phi_ind {σ : St K} (hr : Reg card V S σ) {c : Nat} {F : Forest} (h : Full card V S σ c F) (x : Asg) : σ.φ c x * ind σ F x = σ.φ c x := by
  induction F with
  | nil => simp [ind]
  | cons s d k r ih1 ih2 =>
    obtain ⟨h1, _, _, h4⟩ := h
    simp only [ind]
    by_cases h0 : σ.ψ s x = 0
    · have : σ.φ c x = 0 := by
        rw [h1] at h0
        exact sumOver_zero (hr.φn c) (hr.φm c) (fun v hv => hr.pos c v (mem_without.mp hv).1) h0
      rw [this]; simp
    · rw [if_neg h0, one_mul]; exact ih2 h4

theorem ratio_sum {σ : St K} (hr : Reg card V S σ) {c : Nat} {F : Forest} (hd : Dist c F) (hf : Fits V S c F) (hrip : RipF V S c F)
    (h : Full card V S σ c F) (x : Asg) : sumOver card (fresh V S F) (ratio σ F) x = ind σ F x := by
  induction F generalizing c x with
  | nil => rfl
  | cons s d k r ih1 ih2 =>
    obtain ⟨p1, p2, hcd, hck, hcr, hdk, hdr, hkr, hsk, hsr, hskr⟩ := hd.parts
    obtain ⟨f1, f2, f3, f4⟩ := hf
    obtain ⟨q1, q2, q3⟩ := hrip
    obtain ⟨g1, g2, g3, g4⟩ := h
    have hA : ∀ v ∈ without (V d) (S s), ∀ e, e ∉ d :: k.nodes → v ∉ V e := by
      intro v hv e he hve
      obtain ⟨a1, a2⟩ := mem_without.mp hv
      exact a2 (q1 v d e (List.mem_cons_self ..) he a1 hve)
    simp only [fresh]
    rw [sumOver_append]
    have step : ∀ z, sumOver card (fresh V S k ++ fresh V S r) (ratio σ (.cons s d k r)) z = σ.φ d z * (ind σ r z / σ.ψ s z) := by
      intro z
      rw [sumOver_append]
      have e1 : ∀ y, sumOver card (fresh V S r) (ratio σ (.cons s d k r)) y = ratio σ k y * (σ.φ d y / σ.ψ s y * ind σ r y) := by
        intro y
        have e0 : ∀ w, ratio σ (.cons s d k r) w = (σ.φ d w / σ.ψ s w * ratio σ k w) * ratio σ r w := by
          intro w; simp only [ratio]; ring
        rw [sumOver_congr' e0]
        rw [sumOver_mul_left (g := fun w => σ.φ d w / σ.ψ s w * ratio σ k w)]
        · rw [ih2 p2 f4 q3 g4]; ring
        · intro v hv
          have hv' := (fresh_spec q3 hv).1
          refine Indep.mul (Indep.div (hr.φi d v (hv' d hdr)) (hr.ψi s v (fun hs => hv' d hdr (f2 hs)))) ?_
          exact ratio_indep hr f3 (fun e he => hv' e (hkr e he))
      rw [sumOver_congr' e1]
      rw [sumOver_mul_right (g := fun w => σ.φ d w / σ.ψ s w * ind σ r w)]
      · rw [ih1 p1 f3 q2 g3]
        have := phi_ind hr g3 z
        calc ind σ k z * (σ.φ d z / σ.ψ s z * ind σ r z) = (σ.φ d z * ind σ k z) * (ind σ r z / σ.ψ s z) := by ring
          _ = _ := by rw [this]
      · intro v hv
        have hv' := (fresh_spec q2 hv).1
        refine Indep.mul (Indep.div (hr.φi d v (hv' d hdk)) (hr.ψi s v (fun hs => hv' d hdk (f2 hs)))) ?_
        exact ind_indep hr f4 (fun e he => hv' e (fun hk => hkr e hk he))
    rw [sumOver_congr' step, sumOver_mul_right (g := fun w => ind σ r w / σ.ψ s w)]
    · have : sumOver card (without (V d) (S s)) (σ.φ d) x = σ.ψ s x := by rw [g2]; rfl
      rw [this]
      simp only [ind]
      by_cases h0 : σ.ψ s x = 0
      · rw [h0]; simp
      · rw [if_neg h0, one_mul, mul_div_cancel₀ _ h0]
    · intro v hv
      refine Indep.div ?_ (hr.ψi s v (mem_without.mp hv).2)
      refine ind_indep hr f4 (fun e he => hA v hv e ?_)
      simp only [List.mem_cons, not_or]
      exact ⟨fun e' => hdr (e' ▸ he), fun hk => hkr e hk he⟩

theorem ratio_eq (σ : St K) (F : Forest) (x : Asg) :
    ratio σ F x = (F.nodes.map (fun c => σ.φ c x)).prod / (F.seps.map (fun s => σ.ψ s x)).prod := by
  induction F with
  | nil => simp [ratio, Forest.nodes, Forest.seps]
  | cons s d k r ih1 ih2 =>
    simp only [ratio, Forest.nodes, Forest.seps, List.map_cons, List.map_append, List.prod_cons, List.prod_append, ih1, ih2]
    rw [div_mul_div_comm, div_mul_div_comm]

/-- **agreeing neighbours hold marginals of the represented function** -/
theorem calibrated {n m : Nat} {σ : St K} {T : Asg → K} {c : Nat} {F : Forest} (hr : Reg card V S σ) (hT : Repr n m σ T)
    (hd : Dist c F) (hf : Fits V S c F) (hrip : RipF V S c F) (hfull : Full card V S σ c F) (hV : ∀ e, (V e).Nodup)
    (hnodes : ∀ x, x ∈ c :: F.nodes ↔ x < n) (hseps : ∀ x, x ∈ F.seps ↔ x < m) {U : List Nat} (hU : U.Nodup)
    (hUV : ∀ v, v ∈ U ↔ ∃ e, e < n ∧ v ∈ V e) (x : Asg) :
    σ.φ c x = sumOver card (without U (V c)) T x := by
  have hTx : ∀ z, T z = σ.φ c z * ratio σ F z := by
    intro z
    have h1 := hT.prod z
    have e1 : ∏ c ∈ Finset.range n, σ.φ c z = ((c :: F.nodes).map (fun c => σ.φ c z)).prod := by
      have : Finset.range n = (c :: F.nodes).toFinset := by ext y; rw [List.mem_toFinset, hnodes, Finset.mem_range]
      rw [this, List.prod_toFinset _ hd.nodes]
    have e2 : ∏ s ∈ Finset.range m, σ.ψ s z = (F.seps.map (fun s => σ.ψ s z)).prod := by
      have : Finset.range m = F.seps.toFinset := by ext y; rw [List.mem_toFinset, hseps, Finset.mem_range]
      rw [this, List.prod_toFinset _ hd.seps]
    rw [e1, e2, List.map_cons, List.prod_cons] at h1
    rw [ratio_eq]
    by_cases h0 : (F.seps.map (fun s => σ.ψ s z)).prod = 0
    · rw [h0, div_zero, mul_zero]
      rw [← e2, Finset.prod_eq_zero_iff] at h0
      obtain ⟨s, hs, h0⟩ := h0
      exact hT.zψ s (Finset.mem_range.mp hs) z h0
    · rw [← mul_div_assoc, h1, mul_div_cancel_right₀ _ h0]
  have hperm : (without U (V c)).Perm (fresh V S F) := by
    have hn := fresh_nodup hrip hd hV
    rw [List.nodup_append] at hn
    rw [List.perm_ext_iff_of_nodup (show (without U (V c)).Nodup from hU.filter _) hn.2.1]
    intro v
    rw [mem_without]
    constructor
    · rintro ⟨h1, h2⟩
      obtain ⟨e, he, hv⟩ := (hUV v).mp h1
      rcases List.mem_append.mp (fresh_covers hf ((hnodes e).mpr he) hv) with h | h
      · exact absurd h h2
      · exact h
    · intro hv
      obtain ⟨a1, e, a2, a3⟩ := fresh_spec hrip hv
      refine ⟨(hUV v).mpr ⟨e, (hnodes e).mp (List.mem_cons_of_mem _ a2), a3⟩, ?_⟩
      exact a1 c (List.nodup_cons.mp hd.nodes).1
  rw [sumOver_perm hperm, sumOver_congr' hTx, sumOver_mul_left, ratio_sum hr hd hf hrip hfull, phi_ind hr hfull]
  intro v hv
  exact hr.φi c v ((fresh_spec hrip hv).1 c (List.nodup_cons.mp hd.nodes).1)

end Nip
