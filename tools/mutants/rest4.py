N='Nan/Model.lean'
M('r4-ndot',N,'dot','A.sum [A.mul a.x v.x, A.mul a.y v.y, A.mul a.z v.z]','A.sum [A.mul a.x v.x, A.mul a.y v.y]','C101 C102','dot product drops the last coordinate')
M('r4-ncross',N,'cross','A.sub (A.mul a.x b.y) (A.mul a.y b.x)⟩','A.sub (A.mul a.x b.y) (A.mul b.x a.y)⟩','C101','a product commuted (harmless on the reals)')
M('r4-ncross2',N,'cross','⟨A.sub (A.mul a.y b.z) (A.mul a.z b.y),','⟨A.sub (A.mul a.y b.y) (A.mul a.z b.y),','C101','wrong coordinate in the cross product')
M('r4-nvdiv',N,'vdiv','⟨A.div a.x c, A.div a.y c, A.div a.z c⟩','⟨A.div a.x c, A.div a.y c, a.z⟩','C101','third coordinate not divided')
M('r4-nvsub',N,'vsub','A.sub a.z b.z⟩','A.sub b.z a.z⟩','C101 C102','third difference reversed')
M('r4-nnum',N,'num','if b then A.one else A.zero','if b then A.zero else A.one','C101','the mask is inverted')
M('r4-nmmul',N,'mmul','dot A X.r2 Y.c2⟩⟩','dot A X.r2 Y.c1⟩⟩','C102','wrong column')
M('r4-nmadd',N,'madd','vadd A X.r2 Y.r2⟩','vadd A X.r2 Y.r1⟩','C102','wrong row added')
M('r4-neye',N,'eye','⟨A.zero, A.zero, A.one⟩⟩','⟨A.zero, A.zero, A.zero⟩⟩','C102','the identity lacks an entry')
M('r4-ndot4',N,'dot4','A.mul a.z b.z, A.mul a3 b3]','A.mul a.z b.z]','C102','translation dropped')
D='Nd/Model.lean'
M('r4-uns',D,'unsqueeze','⟨t.dims.insertIdx k 1,','⟨t.dims.insertIdx (k + 1) 1,','C108','new axis at the wrong place')
M('r4-sql',D,'squeezeLast','| 1 :: ds => ⟨ds, fun i => t.get (0 :: i)⟩','| _ :: ds => ⟨ds, fun i => t.get (0 :: i)⟩','C108','squeezes an axis of any size')
M('r4-slt',D,'sliceTo','⟨min n d :: ds, t.get⟩','⟨n :: ds, t.get⟩','C108','slice longer than the axis')
M('r4-zip',D,'zipT','f (a.get (bidx a.dims i)) (b.get (bidx b.dims i))','f (b.get (bidx b.dims i)) (a.get (bidx a.dims i))','C108','operands swapped')
M('r4-mm',D,'matmul','a.get (l :: r :: bidx as is) * b.get (j :: l :: bidx bs is)','a.get (l :: r :: bidx as is) * b.get (l :: j :: bidx bs is)','C108','right operand transposed')
M('r4-mm2',D,'matmul','if k ≠ k\' then .error .runtimeError else','','C108','inner sizes not checked')
M('r4-mm3',D,'matmul','.ok ⟨n :: m :: ds,','.ok ⟨m :: n :: ds,','C108','shape of the product transposed')
M('r4-st',D,'stack2','| 0 :: is => u.get is\n      | _ :: is => v.get is','| 0 :: is => v.get is\n      | _ :: is => u.get is','C108','stacked in the wrong order')
M('r4-st2',D,'stack2','if u.dims = v.dims then\n','if u.dims.length = v.dims.length then\n','C108','shapes not compared')
M('r4-bto','Geom/Model.lean','broadcastsTo','| v :: vs, [] => v = 1 && broadcastsTo vs []','| _ :: vs, [] => broadcastsTo vs []','C21','more dimensions accepted')
M('r4-bto2','Geom/Model.lean','broadcastsTo','(v = t || v = 1) && broadcastsTo vs ts','(v = t || v = 1 || t = 1) && broadcastsTo vs ts','C21','broadcasts the target as well')
T='Dtype/Model.lean'
M('r4-isf',T,'isFloat','| f16 | bf16 | f32 | f64 => true','| f16 | f32 | f64 => true','C105','bfloat16 is no floating dtype')
M('r4-pro',T,'promote','if a = b then a else if a.rank < b.rank then b else','if a = b then a else if a.rank < b.rank then a else','C105','promotes downwards')
M('r4-flo',T,'floatOnly','if a.isFloat then .ok a else .error .runtimeError','.ok a','C105','integer tensors accepted')
M('r4-prod',T,'prod','if a = b ∧ T.mm a = true then','if T.mm a = true then','C105','products of mixed dtypes accepted')
M('r4-flt','Flt/Model.lean','mergeImgF','(scatterAl al fr rows b n) (scatter rows f b n)','(scatterAl al fr rows b n) (scatter rows f b 0)','C90','measurement of the first point')
A='Axis/Model.lean'
M('r4-scl',A,'scaleLast','s (i.headD 0) * t.get i','s 0 * t.get i','C109','one scale for all coordinates')
M('r4-azip',A,'zip','f (a.get i) (b.get i)⟩','f (b.get i) (a.get i)⟩','C109','operands swapped')
G='Grad/Model.lean'
M('r4-abs',G,'absX','| .inf _ => .inf false','| .inf s => .inf s','C106','|-inf| = -inf')
M('r4-abs2',G,'absX','| .fin a => .fin |a|','| .fin a => .fin a','C106','no absolute value')
M('r4-at2',G,'atan2X','.fin (Geom.atan2 y x)','.fin (Geom.atan2 x y)','C106','atan2 arguments swapped')
M('r4-cev',G,'Cond.eval','| absGt a eps => X.lt (.fin eps) (absX (e a))','| absGt a eps => X.lt (absX (e a)) (.fin eps)','C106','guard reversed')
R='RMem/Model.lean'
M('r4-ral',R,'Mem.alloc','if r < m.next then m.cell r else f (r - m.next)','f (r - m.next)','C83 C84 C99','allocation overwrites')
M('r4-rbase',R,'Args.base','| .depth => a.depth','| .depth => a.rgb','C83 C84 C99','depth takes the colour image')
M('r4-ropt',R,'Args.opt','| .pix => a.pix\n','| .pix => a.poses\n','C83 C84 C99','pixel positions take the poses')
M('r4-rof',R,'Obj.of','⟨b, x, none, s.cf,','⟨b, x, none, !s.cf,','C83 C84 C99','the layout flag is flipped')
P='Mem/Model.lean'
M('r4-mal',P,'Mem.alloc','if r < m.next then m.cell r else f (r - m.next)','f (r - m.next)','C81 C82 C98','allocation overwrites')
M('r4-mpk',P,'Mem.poke','if q = r then { c with dev := (m.cell r).dev } else m.cell q','if q = r then { c with dev := (m.cell r).dev } else c','C81 C82','a write reaches every tensor')
M('r4-mrd',P,'Mem.read','T2.take v.len ((m.cell v.ref).vals.getD v.slot ⟨[], 0⟩)','(m.cell v.ref).vals.getD v.slot ⟨[], 0⟩','C81 C82','views are not cut to their length')
M('r4-four',P,'four','| .normals => n\n  | .colors => c','| .normals => c\n  | .colors => n','C81 C98','normals and colours exchanged')
M('r4-bits',P,'bitsOf','.getD []','.getD [[]]','C81','(unobservable default)')
