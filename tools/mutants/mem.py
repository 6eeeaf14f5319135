F='Mem/Model.lean'
M('mem-passlist-share',F,'passList','if p.keep (m.cell v.ref) then v else','if p.keep (m.cell v.ref) || v.slot = 0 then v else','C81','clone forgets to copy list tensors')
M('mem-passone-share',F,'passOne','if p.keep (m.cell r) then','if p.keep (m.cell r) || r = 0 then','C81','clone shares the storage at address 0')
M('mem-passopt',F,'passOpt','some (f m x).2)','some x)','C81','clone keeps the original tensors')
M('mem-each-order',F,'each','let n := passOpt f p.1 (a .normals)','let n := passOpt f m (a .normals)','C81','the copies of points and normals get the same storage')
M('mem-pass-to-dev',F,'passList','⟨p.dev (m.cell (l.getD i ⟨0, 0, 0⟩).ref), [m.read','⟨(m.cell (l.getD i ⟨0, 0, 0⟩).ref).dev, [m.read','C82','list tensors not moved to the device')
M('mem-new-dev',F,'newList','let d := device.getD (m.cell (P.headD ⟨0, 0, 0⟩).ref).dev\n    let q := each (passList (Pass.to d)) m arg','let d := device.getD (m.cell (P.headD ⟨0, 0, 0⟩).ref).dev\n    let q := each (passList Pass.detach) m arg','C82','the list constructor ignores the device of the tensors')
M('mem-newt-dev',F,'newTensor','let q := each (passOne (Pass.to d)) m arg','let q := (m, arg)','C82','the tensor constructor does not move its tensors')
M('mem-newl-clone',F,'newList','let q := each (passList (Pass.to d)) m arg','let q := each (passList ⟨fun _ => false, fun _ => d⟩) m arg','C81','the list constructor copies its tensors')
M('mem-newt-clone',F,'newTensor','let q := each (passOne (Pass.to d)) m arg','let q := each (passOne ⟨fun _ => false, fun _ => d⟩) m arg','C81','the tensor constructor copies its tensors')
M('mem-getlist-len',F,'getList','⟨r, b, n⟩','⟨r, b, n + 1⟩','C81','list slices one row too long')
M('mem-getlist-slot',F,'getList','⟨r, b, n⟩','⟨r, 0, n⟩','C81','always the first cloud')
M('mem-mask-dev',F,'getMask','m.alloc 1 fun _ => ⟨o.dev, [], bits, []⟩','m.alloc 1 fun _ => ⟨.cpu, [], bits, []⟩','C82','the mask is made on the CPU')
M('mem-mask-neg',F,'getMask','decide (n < if','decide (n ≤ if','C81','mask one row too long')
M('mem-fill-dev',F,'fillPad','⟨(m.cell (l.headD ⟨0, 0, 0⟩).ref).dev, p, [], []⟩','⟨.cpu, p, [], []⟩','C82','padded tensors are made on the CPU')
M('mem-fill-share',F,'fillPad','{ o with pad := Function.update o.pad X (some m.next) }','{ o with pad := Function.update o.pad X (some 0) }','C81','padded tensor written over storage 0')
M('mem-setpad-noclone',F,'setPad','pad := Function.update o.pad X (some m.next), lst','pad := Function.update o.pad X (some t), lst','C81','the padded setter keeps the tensor of the caller')
M('mem-setpad-dev',F,'setPad','m.alloc 1 fun _ => ⟨o.dev, v, [], []⟩','m.alloc 1 fun _ => ⟨.cpu, v, [], []⟩','C82','the setter puts the tensor on the CPU')
M('mem-setpad-lst',F,'setPad','lst := Function.update o.lst X none })','lst := o.lst })','C81','the list is not dropped by the padded setter')
M('mem-setlist-noclone',F,'setList','let q := passList ⟨fun _ => false, fun _ => o.dev⟩ m ts','let q := passList (Pass.to o.dev) m ts','C81','the list setter keeps the tensors of the caller')
M('mem-setlist-dev',F,'setList','let q := passList ⟨fun _ => false, fun _ => o.dev⟩ m ts','let q := passList Pass.clone m ts','C82','the list setter leaves tensors on their device')
M('mem-setlist-pad',F,'setList','pad := if X = .points then Function.update o.pad .points none else o.pad })','pad := o.pad })','C81','padded points not dropped')
M('mem-internal-mask',F,'passInternal','mask := if k.2.isSome then k.2 else c.mask','mask := s.mask','C81','clone shares the mask')
M('mem-internal-num',F,'passInternal','num := n.2 }','num := s.num }','C81','clone shares the sizes')
M('mem-internal-pad',F,'passInternal','pad := fun X => if (q.2 X).isSome then q.2 X else c.pad X','pad := fun X => if (q.2 X).isSome then s.pad X else c.pad X','C81','clone shares the padded tensors')
M('mem-clone-lists',F,'clone','let q := each (passList Pass.clone) m o.lst','let q := (m, o.lst)','C81','clone does not copy the lists')
M('mem-clone-pads',F,'clone','let q := each (passOne Pass.clone) m o.pad','let q := (m, o.pad)','C81','clone does not copy the padded tensors before construction (harmless: the internal tensors are cloned afterwards)')
M('mem-clone-internal',F,'clone','(.ok (passInternal Pass.clone m o c).2, (passInternal Pass.clone m o c).1, o)','(.ok (passInternal Pass.detach m o c).2, (passInternal Pass.detach m o c).1, o)','C81','internal tensors not cloned')
M('mem-detach-clone',F,'detach','(.ok (passInternal Pass.detach m o c).2, (passInternal Pass.detach m o c).1, o)','(.ok c, m, o)','C81','detach returns the clone (the sharing claim is false then)')
M('mem-to-self',F,'toDevice','if !copy && a.same o.dev then','if a.same o.dev then','C82','to ignores copy')
M('mem-to-self2',F,'toDevice','if !copy && a.same o.dev then','if !copy then','C82','to returns self on another device')
M('mem-to-dev',F,'toDevice','{ c with lst := q.2, dev := a.meant cur }','{ c with lst := q.2 }','C82','device attribute not updated')
M('mem-to-lst',F,'toDevice','{ c with lst := q.2, dev := a.meant cur }','{ c with dev := a.meant cur }','C82','lists not moved')
M('mem-to-internal',F,'toDevice','let k := passInternal (Pass.to (a.meant cur)) q.1 o','let k := passInternal Pass.detach q.1 o','C82','internal tensors not moved')
M('mem-same',F,'DevArg.same','| _ => false','| .name e => d = e\n  | _ => false','C82','a string naming the device compares equal (torch would then return self)')
M('mem-meant',F,'DevArg.meant','| .anyGpu => .gpu cur','| .anyGpu => .gpu 0','C82','cuda always means gpu 0 (a different model of torch)')
M('mem-cat-share',F,'catLists','c.mapIdx fun i t => ⟨m.next + i, 0, t.rows.length⟩','l.mapIdx fun i t => ⟨t.ref, 0, t.len⟩','C81','append keeps the tensors')
M('mem-cat-order',F,'catLists','(m.read v).rows ++ (m.read w).rows','(m.read w).rows ++ (m.read v).rows','C81','appended in front')
M('mem-append-num',F,'append','{ s with num := m.next, eq','{ s with num := o.num, eq','C81','sizes of the argument shared')
M('mem-append-dev',F,'append','if o.dev ≠ s.dev then (.error .valueError, m, s, o)\n  else\n','','C82','append across devices not refused')
M('mem-append-pad',F,'appendAttr','pad := Function.update s.pad X none','pad := s.pad','C81','stale padded tensor kept')
M('mem-append-copy',F,'append','let q := passOpt (passList ⟨fun _ => false, fun _ => s.dev⟩) m l\n      let m := q.1','let q := (m, l)\n      let m := q.1','C81','appending to an empty object shares the tensors')
M('mem-append-attr',F,'copyAttr','let q := passOpt (passList ⟨fun _ => false, fun _ => s.dev⟩) m l','let q := (m, l)','C81','appending to an empty object shares the attributes')
M('mem-append-int',F,'append','let k := passInternal Pass.clone m o','let k := passInternal Pass.detach m o','C81','appending to an empty object shares padded tensors')
M('mem-getitem-clone',F,'getitem','((newList m (four p n c f) (p.getD []) none).1, (newList m (four p n c f) (p.getD []) none).2, o)','((newList m (four p n c f) (p.getD []) (some .cpu)).1, (newList m (four p n c f) (p.getD []) (some .cpu)).2, o)','C82 C81','indexing moves to the CPU')
M('mem-getitem-swap',F,'getitem','((newList m (four p n c f) (p.getD []) none).1, (newList m (four p n c f) (p.getD []) none).2, o)','((newList m (four p c n f) (p.getD []) none).1, (newList m (four p c n f) (p.getD []) none).2, o)','C81','normals and colours swapped')
M('mem-rebind-inplace',F,'rebind','(m.alloc 1 fun _ => ⟨(m.cell r).dev, mapRows g (m.cell r).vals, [], []⟩,\n      { o with pad := Function.update o.pad X (some m.next), lst','(⟨m.next, fun q => if q = r then ⟨(m.cell r).dev, mapRows g (m.cell r).vals, [], []⟩ else m.cell q⟩,\n      { o with pad := o.pad, lst','C81','offset_ etc. write into the existing tensor')
M('mem-rebind-dev',F,'rebind','⟨(m.cell r).dev, mapRows','⟨.cpu, mapRows','C82','results on the CPU')
M('mem-rebind-lst',F,'rebind','(some m.next), lst := Function.update o.lst X none })','(some m.next) })','C81','stale list kept')
M('mem-oop',F,'outOfPlace','match op m c with','match op m o with','C81','out-of-place operation on self')
M('mem-scale',F,'scale_','x * f b n c * maskVal','x * f b n c + maskVal','C81','mask added')
M('mem-transform',F,'transform_','match rotate_ (T.map M4.R) pre m o with','match rotate_ (T.map M4.R) (!pre) m o with','C81','side swapped')
