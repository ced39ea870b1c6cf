import Verif.Model.Guarded
import Verif.Proofs.RW
/-! # The programs of the methods do what the sequential models do -/
namespace Noise
open RW

namespace RW
variable {σ ρ τ υ : Type}

theorem Prog.bind_assoc (p : Prog σ ρ) (f : ρ → Prog σ τ) (g : τ → Prog σ υ) : (p.bind f).bind g = p.bind fun r => (f r).bind g := by
  induction p with
  | ret r => rfl
  | act u n ih => simp only [Prog.bind, ih]
  | lock m p ih => simp only [Prog.bind, ih]
  | unlock m p ih => simp only [Prog.bind, ih]

theorem Prog.Body.get {m : Mode} {n : σ → Prog σ ρ} (h : ∀ s, (n s).Body m) : (Prog.get n).Body m := .act (fun _ _ => rfl) h

theorem Prog.Body.set {u : σ → σ} {p : Prog σ ρ} (h : p.Body .w) : (Prog.set u p).Body .w := .act (fun e => by cases e) fun _ => h

theorem Prog.Body.bind {m : Mode} {p : Prog σ ρ} {f : ρ → Prog σ τ} (h : p.Body m) (hf : ∀ r, (f r).Body m) : (p.bind f).Body m := by
  induction h with
  | ret r => exact hf r
  | act h1 _ ih => exact .act h1 ih

theorem Method.guarded {m : Mode} {body : Prog σ ρ} {f : σ → σ × ρ} (h1 : body.Body m) (h2 : ∀ s, body.run s = f s) : Method (.guarded m body) f := .inr ⟨m, body, rfl, h1, h2⟩

end RW

/-! ## The codec -/

theorem codec_method (op : CodecOp) : Method (codecImpl plainMarshal op) (codecApply op) := by
  cases op with
  | register t d =>
    refine .guarded (.get fun c => ?_) fun c => ?_
    · split
      · exact .ret _
      · split
        · exact .ret _
        · exact .get fun _ => .set (.get fun _ => .set (.set (.get fun _ => .ret _)))
    · simp only [codecApply, Codec.register, Prog.get, Prog.set, Prog.run, id]
      cases hs : c.ser t with
      | some o => simp [Prog.run]
      | none =>
        by_cases hd : d.ret = some t
        · simp [hd, Prog.run]
        · simp [hd, Prog.run]
  | encode v =>
    have : codecImpl plainMarshal (.encode v) = .guarded .r (.get fun c => match c.ser (match v.ty with
        | .ptr t => t
        | t => t) with
      | none => .ret (.bytes (.err .notRegistered))
      | some opcode => .ret (.bytes (.ok (put16 opcode ++ v.marshalled)))) := by
      simp only [codecImpl, encodeProg, Prog.guarded, Prog.get, Prog.bind, plainMarshal]
      congr 2
      funext c
      generalize c.ser _ = o
      cases o <;> rfl
    rw [this]
    refine .guarded (.get fun c => ?_) fun c => ?_
    · split <;> exact .ret _
    · simp only [codecApply, Codec.encode, Prog.get, Prog.run, id]
      generalize c.ser _ = o
      cases o <;> rfl
  | decode data =>
    simp only [codecImpl, decodeProg]
    split
    · rename_i h
      exact .inl ⟨_, rfl, fun s => by simp [codecApply, Codec.decode, h]⟩
    · rename_i h
      split
      · rename_i opcode rest h1 h2
        refine .guarded (.get fun c => ?_) fun c => ?_
        · split <;> exact .ret _
        · simp only [codecApply, Codec.decode, h, if_false, Prog.get, Prog.run, id]
          cases hh : slice data 0 2 with
          | ok hd =>
            rw [hh] at h1
            simp only [Res.bind_ok] at h1
            simp only [h1, h2, Res.bind_ok]
            generalize c.de opcode = o
            cases o <;> rfl
          | err e => rw [hh] at h1; simp at h1
          | panic => rw [hh] at h1; simp at h1
      · rename_i h3
        exfalso
        match data, h with
        | a :: b :: l, _ =>
          exact h3 (b.toUInt16 ||| (a.toUInt16 <<< 8)) l (by simp only [slice, List.drop_zero, Nat.sub_zero, List.length_cons]; rw [if_pos (by omega)]; rfl) (by simp [slice])
        | [], h => simp at h
        | [a], h => simp at h

/-! ## The routing table -/

theorem delete_by_address_run (a : Text) (n i : Nat) (t : Table) :
    (deleteByAddressBody a i n).run t = ((t.deleteByAddressLoop a i n).1, .deleted (t.deleteByAddressLoop a i n).2.1 (t.deleteByAddressLoop a i n).2.2) := by
  induction n generalizing i with
  | zero => rfl
  | succ n ih =>
    simp only [deleteByAddressBody, Table.deleteByAddressLoop, Prog.get, Prog.run, id]
    cases (t.entries i).find? (fun e => decide (e.address = a)) with
    | some e => simp [Prog.set, Prog.run, Table.setBucket]
    | none => exact ih _

theorem find_loop_run (target : PublicKey) (k : Int) (idx : Nat) (done : List ID → Prog Table TabRes) (fuel i : Nat) (l : List ID) (t : Table) :
    (findLoopProg target k idx done fuel i l).run t = (done (t.findLoop target k idx fuel i l)).run t := by
  induction fuel generalizing i l with
  | zero => rfl
  | succ n ih =>
    simp only [findLoopProg, Table.findLoop]
    split
    · simp only [Prog.get, Prog.run, id, ih]
    · rfl

theorem find_loop_body (target : PublicKey) (k : Int) (idx : Nat) (done : List ID → Prog Table TabRes) (h : ∀ l, (done l).Body .r) (fuel i : Nat) (l : List ID) : (findLoopProg target k idx done fuel i l).Body .r := by
  induction fuel generalizing i l with
  | zero => exact h l
  | succ n ih =>
    simp only [findLoopProg]
    split
    · exact .get fun _ => .get fun _ => ih _ _
    · exact h l

theorem entries_run (n i : Nat) (acc : List ID) (t : Table) : (entriesBody i n acc).run t = (t, .list (acc ++ (List.range' i n).flatMap t.entries)) := by
  induction n generalizing i acc with
  | zero => simp [entriesBody, Prog.run]
  | succ n ih => simp [entriesBody, Prog.get, Prog.run, ih, List.range'_succ]

theorem table_method (S : Sorter) (op : TabOp) : Method (tableImpl S op) (tableApply S op) := by
  cases op with
  | update e =>
    simp only [tableImpl, updateProg]
    split
    · rename_i h
      exact .inl ⟨_, rfl, fun t => by simp [tableApply, Table.update, h]⟩
    · rename_i h
      refine .guarded (.get fun t => .get fun t => ?_) fun t => ?_
      · split
        · exact .set (.ret _)
        · refine .get fun t => ?_
          split
          · exact .set (.set (.ret _))
          · exact .ret _
      · simp only [tableApply, Table.update, h, if_false, Prog.get, Prog.run, id]
        cases hf : (t.entries (t.bucketIndex e.id)).find? (fun x => decide (x.id = e.id)) with
        | some x => simp [Prog.set, Prog.run]
        | none =>
          by_cases hl : (t.entries (t.bucketIndex e.id)).length < bucketSize
          · simp [hl, Prog.set, Prog.run, Table.setBucket]
          · simp [hl, Prog.run]
  | last k => exact .guarded (.get fun _ => .get fun _ => .ret _) fun t => rfl
  | bucket k => exact .guarded (.get fun _ => .get fun _ => .ret _) fun t => rfl
  | recorded k => exact .guarded (.get fun _ => .get fun _ => .ret _) fun t => rfl
  | delete k =>
    refine .guarded (.get fun t => .get fun t => ?_) fun t => ?_
    · split
      · exact .set (.set (.ret _))
      · exact .ret _
    · simp only [tableApply, Table.delete, Prog.get, Prog.run, id]
      cases hf : (t.entries (t.bucketIndex k)).find? (fun x => decide (x.id = k)) with
      | some x => simp [Prog.set, Prog.run, Table.setBucket]
      | none => simp [Prog.run]
  | deleteByAddress a =>
    refine .guarded ?_ fun t => delete_by_address_run a 256 0 t
    have : ∀ n i, (deleteByAddressBody a i n).Body .w := by
      intro n
      induction n with
      | zero => intro i; exact .ret _
      | succ n ih =>
        intro i
        refine .get fun t => ?_
        split
        · exact .set (.set (.ret _))
        · exact ih _
    exact this _ _
  | findClosest target k =>
    refine .guarded (.get fun t => .get fun t => find_loop_body _ _ _ _ (fun l => .ret _) _ _ _) fun t => ?_
    simp only [Prog.get, Prog.run, id, find_loop_run, tableApply, Table.findClosest]
  | entries =>
    refine .guarded (.get fun t => ?_) fun t => ?_
    · have : ∀ n i acc, (entriesBody i n acc).Body .r := by
        intro n
        induction n with
        | zero => intro i acc; exact .ret _
        | succ n ih => intro i acc; exact .get fun _ => ih _ _
      exact this _ _ _
    · simp only [Prog.get, Prog.run, id, entries_run, tableApply, Table.all, List.range_eq_range', List.nil_append]
  | numEntries => exact .guarded (.get fun _ => .ret _) fun t => rfl

/-! ## The request map -/

theorem requests_method (op : Nat × ReqOp) : Method (requestsImpl op) (requestsApply op) := by
  obtain ⟨k, op⟩ := op
  cases op with
  | register =>
    have hrest : ∀ f : RequestMap → RequestMap, (Prog.set f (.get fun r => .get fun r' => match r'.entries r.nonce with
          | some _ => .ret .refused
          | none => .set (fun s => { s with entries := fun n => if n = r.nonce then some k else s.entries n }) (.ret (.issued r.nonce))) : Prog RequestMap ReqObs).Body .w := by
      intro f
      refine .set (.get fun r => .get fun r' => ?_)
      split
      · exact .ret _
      · exact .set (.ret _)
    refine .guarded (.get fun r => ?_) fun r => ?_
    · split
      · exact .set (hrest _)
      · exact hrest _
    · simp only [requestsApply, RequestMap.exec, RequestMap.nextNonce, RequestMap.candidate, Prog.get, Prog.run, id]
      by_cases hn : r.nonce = 18446744073709551615
      · simp only [hn, if_true, Prog.set, Prog.run]
        generalize h : r.entries (0 + 1) = o
        cases o <;> simp only [id, h, Prog.run]
      · simp only [hn, if_false, Prog.set, Prog.run]
        generalize h : r.entries (r.nonce + 1) = o
        cases o <;> simp only [id, h, Prog.run]
  | find n =>
    refine .guarded (.get fun r => ?_) fun r => ?_
    · split
      · exact .set (.ret _)
      · exact .ret _
    · simp only [requestsApply, RequestMap.exec, RequestMap.findRequest, Prog.get, Prog.run, id]
      cases r.entries n <;> simp [Prog.set, Prog.run]
  | fail n =>
    refine .guarded (.get fun r => ?_) fun r => ?_
    · split
      · exact .set (.ret _)
      · exact .ret _
    · simp only [requestsApply, RequestMap.exec, RequestMap.markRequestFailed, Prog.get, Prog.run, id]
      cases r.entries n <;> simp [Prog.set, Prog.run]
  | closeAll => exact .guarded (.set (.ret _)) fun r => rfl

end Noise
