import Verif.HomomorphismTree

/-!
# Homomorphisms between arithmetics: building a model, inference over time

The functions of `Verif/Sepsets.lean`, `Verif/Build.lean` and `Verif/Dynamic.lean` commute with a homomorphism.
-/

namespace Nip

open Res Spec

set_option linter.unusedSectionVars false

/-! ## heaps -/

section
variable {α β : Type}

def HeapItem.on (f : α → β) (x : HeapItem α) : HeapItem β := { content := f x.content, primary := x.primary, secondary := x.secondary }

def Heap.on (f : α → β) (h : Heap α) : Heap β :=
  { items := h.items.map (HeapItem.on f), allocated := h.allocated, bytes := h.bytes, heapified := h.heapified, updated := h.updated }

namespace Heap
variable {f : α → β}

@[simp] theorem on_items_length (h : Heap α) : (h.on f).items.length = h.items.length := by simp [Heap.on]

theorem on_minChild (items : List (HeapItem α)) (i : Nat) : minChild (items.map (HeapItem.on f)) i = minChild items i := by
  unfold minChild
  simp only [List.length_map, on_rd]
  have e : ∀ (l i : Nat), ((do
        let a ← (rd items l).on (HeapItem.on f)
        let b ← (rd items i).on (HeapItem.on f)
        ok (if lessThan a b then l else i)) : Res Nat) = (do
        let a ← rd items l
        let b ← rd items i
        ok (if lessThan a b then l else i)) := by
    intro l i
    cases rd items l <;> cases rd items i <;> rfl
  rw [e]
  congr 1
  funext m
  rw [e]

theorem on_siftDown (fuel : Nat) (items : List (HeapItem α)) (i : Nat) :
    siftDown fuel (items.map (HeapItem.on f)) i = (siftDown fuel items i).on (List.map (HeapItem.on f)) := by
  induction fuel generalizing items i with
  | zero => rfl
  | succ fuel ih =>
    unfold siftDown
    rw [on_minChild]
    refine on_same fun m => on_ite Iff.rfl ?_ rfl
    refine on_bind (on_rd _ _ _) fun a => on_bind (on_rd _ _ _) fun b => on_bind (on_wr _ _ _ _) fun items => on_bind (on_wr _ _ _ _) fun items => ih _ _

theorem on_minHeapify (items : List (HeapItem α)) (i : Nat) :
    minHeapify (items.map (HeapItem.on f)) i = (minHeapify items i).on (List.map (HeapItem.on f)) := by
  unfold minHeapify
  rw [List.length_map, on_siftDown]

theorem on_build (h : Heap α) : (h.on f).build = h.build.on (Heap.on f) := by
  unfold build
  rw [on_items_length]
  refine on_bind (f := List.map (HeapItem.on f)) (on_ite Iff.rfl ?_ ?_) fun items => rfl
  · exact on_loopDown rfl fun i items => on_minHeapify _ _
  · exact on_foldlM (f := List.map (HeapItem.on f)) (fun items i => on_minHeapify _ _) h.updated h.items

theorem on_insert {pk' sk' : β → Int} {pk sk : α → Int} (hp : ∀ a, pk' (f a) = pk a) (hs : ∀ a, sk' (f a) = sk a) (ptr : Nat) (h : Heap α) (a : α) :
    insert ptr pk' sk' (h.on f) (f a) = (insert ptr pk sk h a).on (Heap.on f) := by
  unfold insert
  rw [on_items_length]
  refine on_bind (f := Heap.on f) (on_ite Iff.rfl ?_ rfl) fun h => ?_
  · simp only
    rw [on_items_length]
    refine on_loopDown (f := Heap.on f) rfl fun k h => ?_
    rw [on_items_length]
    exact on_same fun _ => rfl
  · rw [on_items_length]
    refine on_same fun _ => ?_
    simp [Heap.on, HeapItem.on, hp, hs]

theorem on_extractMin (h : Heap α) : (h.on f).extractMin = h.extractMin.on (Prod.map (Option.map f) (Heap.on f)) := by
  unfold extractMin
  rw [on_items_length]
  refine on_ite Iff.rfl rfl ?_
  refine on_bind (on_rd _ _ _) fun min => on_bind (on_rd _ _ _) fun last => on_bind (on_wr _ _ _ _) fun items => ?_
  rw [show (items.map (HeapItem.on f)).dropLast = items.dropLast.map (HeapItem.on f) from by rw [List.map_dropLast]]
  exact on_bind (on_minHeapify _ _) fun items => rfl

end Heap
end

variable {K L : Type} [Zero K] [One K] [Add K] [_root_.Sub K] [Mul K] [Div K] [LinearOrder K] [Zero L] [One L] [Add L] [_root_.Sub L] [Mul L] [Div L] [LinearOrder L]

/-! ## cliques and separators -/

section
variable {φ : K → L} (H : Hom φ)
include H

theorem on_cliqueOfSorted (card : Nat → Nat) (vs : List Nat) : Clique.ofSorted card vs = (Clique.ofSorted card vs : Res (Option (Clique K))).on (Option.map (Clique.on φ)) := by
  unfold Clique.ofSorted
  refine on_bind (Potential.on_new H _ _ none) fun p => on_bind (Potential.on_new H _ _ none) fun o => ?_
  cases p <;> cases o <;> rfl

theorem on_sepsetMake (card : Nat → Nat) (a b : Nat) (va vb : List Nat) :
    Sepset.make card a b va vb = (Sepset.make card a b va vb : Res (Option (Sepset K))).on (Option.map (Sepset.on φ)) := by
  unfold Sepset.make
  refine on_same fun r => on_same fun vs => ?_
  refine on_bind (Potential.on_new H _ _ none) fun p => on_bind (Potential.on_new H _ _ none) fun o => ?_
  cases p <;> cases o <;> rfl

namespace JTree

theorem on_buildSepsetHeap (ptr : Nat) (card : Nat → Nat) (t : JTree K) :
    (t.on φ).buildSepsetHeap ptr card = (t.buildSepsetHeap ptr card).on (Option.map (Heap.on (Sepset.on φ))) := by
  unfold buildSepsetHeap
  simp only [on_length]
  unfold Heap.new
  by_cases hn : ((t.cliques.length * (t.cliques.length - 1) / 2 : Nat) : Int) ≤ 0
  · rw [if_pos hn, if_pos hn]
    rfl
  · rw [if_neg hn, if_neg hn]
    refine on_bind (f := Heap.on (Sepset.on φ)) (on_loop rfl fun i h => on_loop rfl fun j h => ?_) fun h => ?_
    · refine on_bind (on_rd _ _ _) fun a => on_bind (on_rd _ _ _) fun b => on_bind (on_sepsetMake H _ _ _ _ _) fun s => ?_
      cases s with
      | none => rfl
      | some s => exact Heap.on_insert (fun _ => rfl) (fun _ => rfl) _ _ _
    · exact on_bind (Heap.on_build _) fun h => rfl

theorem on_sepsetLoop (fuel inserted : Nat) (h : Heap (Sepset K)) (t : JTree K) :
    sepsetLoop fuel inserted (h.on (Sepset.on φ)) (t.on φ) = (sepsetLoop fuel inserted h t).on (Prod.map id (JTree.on φ)) := by
  induction fuel generalizing inserted h t with
  | zero => rfl
  | succ fuel ih =>
    unfold sepsetLoop
    rw [on_length]
    refine on_ite Iff.rfl ?_ rfl
    refine on_bind (Heap.on_extractMin _) fun r => ?_
    obtain ⟨item, h⟩ := r
    cases item with
    | none => rfl
    | some s =>
      refine on_bind (on_unmarkAll _) fun t => ?_
      rw [on_length]
      refine on_bind (on_connected _ t s.first s.second) fun r => ?_
      refine on_ite Iff.rfl ?_ (ih _ _ _)
      exact on_bind (on_confirm _ _) fun t => ih _ _ _

theorem on_createSepsets (ptr : Nat) (card : Nat → Nat) (t : JTree K) :
    (t.on φ).createSepsets ptr card = (t.createSepsets ptr card).on (Prod.map id (JTree.on φ)) := by
  unfold createSepsets
  refine on_bind (on_buildSepsetHeap H _ _ _) fun h => ?_
  cases h with
  | none => rfl
  | some h =>
    show sepsetLoop ((h.on (Sepset.on φ)).items.length + 2) 0 _ _ = _
    rw [Heap.on_items_length]
    exact on_sepsetLoop H _ _ _ _

end JTree

theorem on_mapM {α β γ : Type} {f : α → β} {g' : γ → Res β} {g : γ → Res α} (h : ∀ c, g' c = (g c).on f) (l : List γ) :
    l.mapM g' = (l.mapM g).on (List.map f) := by
  induction l with
  | nil => rfl
  | cons c l ih =>
    rw [List.mapM_cons, List.mapM_cons]
    exact on_bind (h c) fun a => on_bind ih fun l => rfl

theorem on_makeCliques (card : Nat → Nat) (sets : List (List Nat)) : makeCliques card sets = (makeCliques card sets : Res (List (Clique K))).on (List.map (Clique.on φ)) := by
  unfold makeCliques
  refine on_mapM H (fun vs => ?_) sets
  refine on_bind (on_cliqueOfSorted H card vs) fun c => ?_
  cases c <;> rfl

theorem on_graphToTree (ptr : Nat) (pk sk : List Nat → Int) (card : Nat → Nat) (oldOut out : Nat → Bool) (g : Graph) :
    graphToTree ptr pk sk card oldOut out g = (graphToTree ptr pk sk card oldOut out g : Res (Nat × JTree K)).on (Prod.map id (JTree.on φ)) := by
  unfold graphToTree
  exact on_same fun sets => on_bind (on_makeCliques H card sets) fun cs => JTree.on_createSepsets H ptr card { cliques := cs, sepsets := [] }

end

/-! ## the model of a file -/

/-- A table with other numbers. -/
def parsedOn (φ : K → L) (q : Parsed K) : Parsed L := { child := q.child, parents := q.parents, table := q.table.on φ }

/-- A file with other numbers. -/
def netOn (φ : K → L) (f : NetFile K) : NetFile L := { vars := f.vars, card := f.card, next := f.next, pots := f.pots.map (parsedOn φ) }

/-- Variables with other numbers. -/
def varsOn (φ : K → L) (var : Nat → VarRec K) (v : Nat) : VarRec L := (var v).on φ

section
variable {φ : K → L} (H : Hom φ)
include H

theorem varsOn_update (var : Nat → VarRec K) (v : Nat) (r : VarRec K) : Function.update (varsOn φ var) v (r.on φ) = varsOn φ (Function.update var v r) := by
  funext u
  by_cases h : u = v
  · subst h; simp [varsOn]
  · simp [varsOn, Function.update_of_ne h]

namespace NetFile

theorem on_addTable (st : Option (Graph × (Nat → VarRec K))) (q : Parsed K) :
    addTable (st.map (Prod.map id (varsOn φ))) (parsedOn φ q) = (addTable st q).on (Option.map (Prod.map id (varsOn φ))) := by
  cases st with
  | none => rfl
  | some st =>
    obtain ⟨g, var⟩ := st
    unfold addTable
    refine on_same (x := addEdges q g) fun g => ?_
    cases g with
    | none => rfl
    | some g =>
      show ok (some (g, Function.update (varsOn φ var) q.child (({ var q.child with parents := q.parents.take (q.table.dim - 1) } : VarRec K).on φ))) = _
      rw [varsOn_update H]
      rfl

theorem on_toGraph (f : NetFile K) : toGraph (netOn φ f) = (toGraph f).on (Option.map (Prod.map id (varsOn φ))) := by
  unfold toGraph
  rw [show (netOn φ f).pots = f.pots.map (parsedOn φ) from rfl]
  cases hp : f.pots with
  | nil => rfl
  | cons q ps =>
    refine on_same (x := addNodes f.vars (Graph.new f.vars.length)) fun g => ?_
    cases g with
    | none => rfl
    | some g =>
      have := on_foldlM_map (fun s c => on_addTable H s c) (q :: ps) (some (g, fun v => VarRec.new (f.card v)))
      rw [show (Option.map (Prod.map id (varsOn φ)) (some (g, fun v => VarRec.new (f.card v)))) = some (g, fun v => VarRec.new (f.card v)) from by
        simp only [Option.map_some, Prod.map_apply, id]
        congr 2
        funext v
        simp [varsOn, VarRec.on, VarRec.new, H.one]] at this
      exact this

theorem on_interfaceParent (next : Nat → Option Nat) (var : Nat → VarRec K) (v : Nat) :
    interfaceParent next (varsOn φ var) v = varsOn φ (interfaceParent next var v) := by
  unfold interfaceParent
  cases next v with
  | none => rfl
  | some w =>
    simp only
    rw [show ({ varsOn φ var v with oldOutgoing := true } : VarRec L) = ({ var v with oldOutgoing := true } : VarRec K).on φ from rfl, varsOn_update H,
      show ∀ var : Nat → VarRec K, ({ varsOn φ var w with outgoing := true } : VarRec L) = ({ var w with outgoing := true } : VarRec K).on φ from fun _ => rfl,
      varsOn_update H]

theorem on_foldl {α β γ : Type} {f : α → β} {g' : β → γ → β} {g : α → γ → α} (h : ∀ s c, g' (f s) c = f (g s c)) (l : List γ) (s : α) :
    l.foldl g' (f s) = f (l.foldl g s) := by
  induction l generalizing s with
  | nil => rfl
  | cons c l ih => rw [List.foldl_cons, List.foldl_cons, h, ih]

theorem on_interfaces (f : NetFile K) (var : Nat → VarRec K) : interfaces (netOn φ f) (varsOn φ var) = varsOn φ (interfaces f var) := by
  unfold interfaces
  refine on_foldl H (fun var v => ?_) f.vars var
  exact on_foldl H (fun var v => on_interfaceParent H f.next var v) (var v).parents var

theorem on_initTable (st : Option (Model K)) (q : Parsed K) : initTable (st.map (Model.on φ)) (parsedOn φ q) = (initTable st q).on (Option.map (Model.on φ)) := by
  cases st with
  | none => rfl
  | some m =>
    unfold initTable
    refine on_bind (Model.on_findFamily H m q.child) fun r => ?_
    obtain ⟨c, m⟩ := r
    cases c with
    | none => rfl
    | some c =>
      refine on_ite Iff.rfl ?_ ?_
      · refine on_bind (Model.on_initClique H m c q.child q.table false) fun r => on_ite Iff.rfl rfl rfl
      · refine on_bind (f := List.map φ) (on_loop (by simp [H.zero, Model.on, VarRec.on, parsedOn]) fun i l => on_bind (on_rd _ _ _) fun x => on_wr _ _ _ _) fun prior => ?_
        show ok (some ((m.on φ).setVar q.child (({ m.var q.child with prior := some prior } : VarRec K).on φ))) = _
        rw [Model.on_setVar]
        rfl

theorem on_complete (m : Model K) : complete (m.on φ) = (complete m).on φ := by
  unfold complete
  unfold Model.on
  congr 1
  funext v
  have hn : ((m.on φ).var v).prior = none ↔ (m.var v).prior = none := by
    show (m.var v).prior.map _ = none ↔ _
    simp
  by_cases h : v ∈ m.varList ∧ (m.var v).parents = [] ∧ (m.var v).prior = none
  · refine (if_pos (⟨h.1, h.2.1, hn.2 h.2.2⟩ : v ∈ m.varList ∧ ((m.on φ).var v).parents = [] ∧ ((m.on φ).var v).prior = none)).trans ?_
    simp only [if_pos h]
    simp [VarRec.on, H.zero]
  · refine (if_neg (fun g : v ∈ m.varList ∧ ((m.on φ).var v).parents = [] ∧ ((m.on φ).var v).prior = none => h ⟨g.1, g.2.1, hn.1 g.2.2⟩)).trans ?_
    simp only [if_neg h]

theorem on_build (ptr : Nat) (f : NetFile K) : build ptr (netOn φ f) = (build ptr f).on (Option.map (Model.on φ)) := by
  unfold build
  refine on_bind (on_toGraph H f) fun r => ?_
  cases r with
  | none => rfl
  | some r =>
    obtain ⟨g, var⟩ := r
    show (graphToTree ptr (clusterPrimaryCost (isParent (interfaces (netOn φ f) (varsOn φ var)))) _ _ _ _ _ >>= _) = _
    simp only [on_interfaces H]
    refine on_bind (on_graphToTree H ptr (clusterPrimaryCost (isParent (interfaces f var))) (clusterSecondaryCost f.card) f.card
      (fun v => (interfaces f var v).oldOutgoing) (fun v => (interfaces f var v).outgoing) g) fun r => ?_
    refine on_bind (on_foldlM_map (fun s c => on_initTable H s c) f.pots (some { tree := r.2, var := interfaces f var, varList := f.vars, independent := [] })) fun r => ?_
    cases r with
    | none => rfl
    | some m =>
      show ok (some (complete (m.on φ))) = _
      rw [on_complete H]
      rfl

theorem on_interfaceArrays (f : NetFile K) (m : Model K) : interfaceArrays (netOn φ f) (m.on φ) = interfaceArrays f m := rfl

theorem on_interface (f : NetFile K) (m : Model K) : interface (netOn φ f) (m.on φ) = interface f m := by
  unfold interface
  rw [on_interfaceArrays H]
  congr 1
  funext r
  simp only [show (m.on φ).tree = m.tree.on φ from rfl, JTree.on_findClique H]

theorem on_parseModel (ptr : Nat) (f : NetFile K) : parseModel ptr (netOn φ f) = (parseModel ptr f).on (Option.map (Prod.map (Model.on φ) id)) := by
  unfold parseModel
  refine on_bind (on_build H ptr f) fun r => ?_
  cases r with
  | none => rfl
  | some m =>
    show (interface (netOn φ f) (m.on φ) >>= _) = _
    rw [on_interface H]
    exact on_same fun s => rfl

theorem on_runFile (ptr : Nat) (f : NetFile K) (ops : List (Op K)) :
    runFile ptr (netOn φ f) (ops.map (opOn φ)) = (runFile ptr f ops).on (Model.on φ) := by
  unfold runFile
  refine on_bind (on_build H ptr f) fun r => ?_
  cases r with
  | none => rfl
  | some m => exact on_performAll H ops m

end NetFile

/-! ## inference over time -/

theorem on_insertStep (marked : Nat → Bool) (ts : TimeSeries) (t : Int) (m : Model K) :
    insertStep marked ts t (m.on φ) = (insertStep marked ts t m).on (Prod.map id (Model.on φ)) := by
  unfold insertStep
  refine on_ite Iff.rfl rfl ?_
  refine on_bind (f := Model.on φ) (on_loop rfl fun i m => ?_) fun m => rfl
  refine on_same fun v => on_ite Iff.rfl ?_ rfl
  refine on_same fun row => on_same fun d => on_ite Iff.rfl ?_ rfl
  exact on_bind (Model.on_enterIndexObservation H m v d) fun r => rfl

theorem on_startPass (s : Interface) (forward : Bool) (m : Model K) (a : Potential K) :
    startPass s forward (m.on φ) (a.on φ) = (startPass s forward m a).on (Potential.on φ) := by
  unfold startPass
  refine on_ite Iff.rfl (by rw [Potential.on_uniform_one H]; rfl) ?_
  cases (if forward then s.outClique else s.inClique) with
  | none => rfl
  | some c =>
    refine on_bind (on_rd _ _ _) fun cl => on_same fun mp => ?_
    exact on_bind (Potential.on_generalMarginalise H cl.p a (mp.2.getD [])) fun r => Potential.on_normalise H r.2

theorem on_finishPass (s : Interface) (forward : Bool) (m : Model K) (num : Potential K) (den : Option (Potential K)) :
    finishPass s forward (m.on φ) (num.on φ) (den.map (Potential.on φ)) = (finishPass s forward m num den).on (Model.on φ) := by
  unfold finishPass
  refine on_ite Iff.rfl rfl ?_
  cases (if forward then s.inClique else s.outClique) with
  | none => rfl
  | some c =>
    refine on_bind (on_rd _ _ _) fun cl => on_same fun mp => ?_
    refine on_bind (Potential.on_update H (some num) den cl.p (mp.2.getD [])) fun r => ?_
    exact on_bind (on_wr (Clique.on φ) m.tree.cliques c { cl with p := r.2 }) fun cs => rfl

theorem on_absorb (marked : Nat → Bool) (ts : TimeSeries) (t : Nat) (st : Model K × K) :
    absorb none marked ts t (Prod.map (Model.on φ) φ st) = (absorb none marked ts t st).on (Prod.map (Model.on φ) φ) := by
  unfold absorb
  refine on_bind (on_insertStep H marked ts t st.1) fun r => ?_
  exact on_bind (Model.on_makeConsistent H r.2) fun m => rfl

theorem on_posterior (m : Model K) (v : Nat) : posterior (m.on φ) v = (posterior m v).on (Prod.map (List.map φ) (Model.on φ)) := by
  unfold posterior
  refine on_bind (Model.on_findFamily H _ _) fun q => ?_
  obtain ⟨c, m⟩ := q
  cases c with
  | none => rfl
  | some c =>
    refine on_bind (f := Prod.map id (List.map φ)) ?_ fun r => ?_
    · have := JTree.on_marginaliseClique H m.tree c v (List.replicate (m.var v).card 0)
      rw [List.map_replicate, H.zero] at this
      exact this
    · exact on_bind (Potential.on_normaliseArray H r.2 0 (m.var v).card) fun r => rfl

theorem on_posteriors (vars : List Nat) (m : Model K) : posteriors vars (m.on φ) = (posteriors vars m).on (Prod.map (List.map (List.map φ)) (Model.on φ)) := by
  unfold posteriors
  refine on_foldlM (f := Prod.map (List.map (List.map φ)) (Model.on φ)) (fun st v => ?_) vars ([], m)
  refine on_bind (on_posterior H st.2 v) fun r => ?_
  simp [Prod.map]

theorem on_newMessage (s : Interface) (m : Model K) : newMessage s (m.on φ) = (newMessage s m).on (Potential.on φ) := by
  unfold newMessage
  refine on_bind (Potential.on_new H _ _ none) fun p => ?_
  cases p <;> rfl

theorem on_arriveForward (s : Interface) (t : Nat) (m : Model K) (a : Potential K) :
    arriveForward s t (m.on φ) (a.on φ) = (arriveForward s t m a).on (Model.on φ) :=
  on_ite Iff.rfl (on_finishPass H s true m a none) rfl

/-- The variables of the loop with other numbers. -/
def Filter.on (φ : K → L) (st : Filter K) : Filter L :=
  { model := st.model.on φ, alpha := st.alpha.on φ, results := st.results.map (List.map (List.map φ)), ll := φ st.ll }

theorem on_forwardStep (s : Interface) (marked : Nat → Bool) (ts : TimeSeries) (vars : List Nat) (t : Nat) (st : Filter K) :
    forwardStep none s marked ts vars t (Filter.on φ st) = (forwardStep none s marked ts vars t st).on (Filter.on φ) := by
  unfold forwardStep
  refine on_bind (on_arriveForward H s t st.model st.alpha) fun m => ?_
  refine on_bind (on_absorb H marked ts t (m, st.ll)) fun r => ?_
  refine on_bind (on_posteriors H vars r.1) fun q => ?_
  refine on_bind (on_startPass H s true q.2 st.alpha) fun a => ?_
  refine on_bind (Model.on_reset H q.2) fun m => ?_
  refine on_bind (Model.on_usePriors H true m) fun m => ?_
  simp [Filter.on]

theorem on_forwardInference (s : Interface) (marked : Nat → Bool) (ts : TimeSeries) (vars : List Nat) (m : Model K) :
    forwardInference none s marked ts vars (m.on φ) =
      (forwardInference none s marked ts vars m).on (Prod.map (List.map (List.map (List.map φ))) (Prod.map φ (Model.on φ))) := by
  unfold forwardInference
  refine on_bind (on_newMessage H s m) fun a => ?_
  refine on_bind (Model.on_reset H m) fun m => ?_
  refine on_bind (Model.on_usePriors H false m) fun m => ?_
  refine on_bind (f := Filter.on φ) (on_loop (by simp [Filter.on, H.zero]) fun t st => on_forwardStep H s marked ts vars t st) fun st => rfl

/-- The variables of the loops with other numbers. -/
def Smoother.on (φ : K → L) (st : Smoother K) : Smoother L := { model := st.model.on φ, messages := st.messages.map (Potential.on φ), ll := φ st.ll }

theorem on_arriveStored (s : Interface) (t : Nat) (m : Model K) (ms : List (Potential K)) :
    arriveStored s t (m.on φ) (ms.map (Potential.on φ)) = (arriveStored s t m ms).on (Model.on φ) := by
  unfold arriveStored
  refine on_ite Iff.rfl ?_ rfl
  exact on_bind (on_rd _ _ _) fun a => on_finishPass H s true m a none

theorem on_arriveBackward (s : Interface) (t n : Nat) (m : Model K) (ms : List (Potential K)) :
    arriveBackward s t n (m.on φ) (ms.map (Potential.on φ)) = (arriveBackward s t n m ms).on (Model.on φ) := by
  unfold arriveBackward
  refine on_ite Iff.rfl ?_ rfl
  exact on_bind (on_rd _ _ _) fun c => on_bind (on_rd _ _ _) fun a => on_finishPass H s false m c (some a)

theorem on_departBackward (s : Interface) (t : Nat) (m : Model K) (ms : List (Potential K)) :
    departBackward s t (m.on φ) (ms.map (Potential.on φ)) = (departBackward s t m ms).on (List.map (Potential.on φ)) := by
  unfold departBackward
  refine on_ite Iff.rfl ?_ rfl
  exact on_bind (on_rd _ _ _) fun a => on_bind (on_startPass H s false m a) fun a => on_wr _ _ _ _

theorem on_smoothForward (s : Interface) (marked : Nat → Bool) (ts : TimeSeries) (t : Nat) (st : Smoother K) :
    smoothForward none s marked ts t (Smoother.on φ st) = (smoothForward none s marked ts t st).on (Smoother.on φ) := by
  unfold smoothForward
  refine on_bind (on_arriveStored H s t st.model st.messages) fun m => ?_
  refine on_bind (on_absorb H marked ts t (m, st.ll)) fun r => ?_
  refine on_bind (on_rd _ _ _) fun a => ?_
  refine on_bind (on_startPass H s true r.1 a) fun a => ?_
  refine on_bind (on_wr _ _ _ _) fun ms => ?_
  refine on_bind (Model.on_reset H r.1) fun m => ?_
  exact on_bind (Model.on_usePriors H _ m) fun m => rfl

theorem on_smoothAbsorb (s : Interface) (marked : Nat → Bool) (ts : TimeSeries) (t : Nat) (m : Model K) (ms : List (Potential K)) :
    smoothAbsorb s marked ts t (m.on φ) (ms.map (Potential.on φ)) = (smoothAbsorb s marked ts t m ms).on (Model.on φ) := by
  unfold smoothAbsorb
  refine on_bind (on_arriveStored H s t m ms) fun m => ?_
  refine on_bind (on_insertStep H marked ts t m) fun r => ?_
  exact on_bind (on_arriveBackward H s t _ r.2 ms) fun m => Model.on_makeConsistent H m

theorem on_smoothLeave (s : Interface) (t : Nat) (m : Model K) (ms : List (Potential K)) :
    smoothLeave s t (m.on φ) (ms.map (Potential.on φ)) = (smoothLeave s t m ms).on (Prod.map (Model.on φ) (List.map (Potential.on φ))) := by
  unfold smoothLeave
  refine on_bind (on_departBackward H s t m ms) fun ms => ?_
  refine on_bind (Model.on_reset H m) fun m => ?_
  exact on_bind (Model.on_usePriors H _ m) fun m => rfl

theorem on_smoothBackward (s : Interface) (marked : Nat → Bool) (ts : TimeSeries) (vars : List Nat) (t : Nat) (st : Model K × List (Potential K) × List (List (List K))) :
    smoothBackward s marked ts vars t (Prod.map (Model.on φ) (Prod.map (List.map (Potential.on φ)) (List.map (List.map (List.map φ)))) st) =
      (smoothBackward s marked ts vars t st).on (Prod.map (Model.on φ) (Prod.map (List.map (Potential.on φ)) (List.map (List.map (List.map φ))))) := by
  unfold smoothBackward
  refine on_bind (on_smoothAbsorb H s marked ts t st.1 st.2.1) fun m => ?_
  refine on_bind (on_posteriors H vars m) fun r => ?_
  refine on_bind (on_wr (List.map (List.map φ)) st.2.2 t r.1) fun res => ?_
  exact on_bind (on_smoothLeave H s t r.2 st.2.1) fun q => rfl

theorem on_forwardBackward (s : Interface) (marked : Nat → Bool) (ts : TimeSeries) (vars : List Nat) (m : Model K) :
    forwardBackward none s marked ts vars (m.on φ) =
      (forwardBackward none s marked ts vars m).on (Prod.map (List.map (List.map (List.map φ))) (Prod.map φ (Model.on φ))) := by
  unfold forwardBackward newMessages
  refine on_bind (f := List.map (Potential.on φ)) (on_bind (on_newMessage H s m) fun p => by simp) fun ms => ?_
  refine on_bind (Model.on_reset H m) fun m => ?_
  refine on_bind (Model.on_usePriors H false m) fun m => ?_
  refine on_bind (f := Smoother.on φ) (on_loop (by simp [Smoother.on, H.zero]) fun t st => on_smoothForward H s marked ts t st) fun st => ?_
  refine on_bind (f := Prod.map (Model.on φ) (Prod.map (List.map (Potential.on φ)) (List.map (List.map (List.map φ)))))
    (on_loopDown (by simp [Smoother.on, H.zero, Model.on, VarRec.on]) fun t st => on_smoothBackward H s marked ts vars t st) fun r => rfl

end
end Nip
