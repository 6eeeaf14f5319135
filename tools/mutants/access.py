F='Data/Access.lean'
M('ac-neg',F,'pyAt','if i < 0 then i + l.length else i','if i < 0 then i + l.length - 1 else i','C103','negative indices off by one')
M('ac-clamp',F,'pyAt','if k < 0 then .error .indexError else match','match','C103','indices below -len are taken as 0')
M('ac-wrap',F,'pyAt','match l[k.toNat]? with','match l[k.toNat % l.length]? with','C103','indices wrap around: a loop never ends')
M('ac-clone',F,'tumGet','it.color it.depth .shared','it.color it.depth (.fresh (.mats [tumK o]))','C103','TUM returns a copy of the intrinsics (the fix): the leak disappears')
M('ac-iclone',F,'iclGet','it.color it.depth .shared','it.color it.depth (.fresh (.mats [iclK o]))','C103','ICL returns a copy of the intrinsics')
M('ac-scshare',F,'scanGet','(.fresh (.mats [scaleIntrinsics4 (readM it.intrinsics) (o.height / 480) (o.width / 640)]))','.shared','C103','Scannet returns one intrinsics tensor for all scenes')
M('ac-order',F,'itemSlots','andThen (appendIf o.intrinsics (.ok K) out) fun out =>\n  andThen (if o.pose','andThen (appendIf o.names (.ok K) out) fun out =>\n  andThen (if o.pose','C103','intrinsics appended when names are asked for')
M('ac-dshare',F,'itemSlots','andThen (appendIf o.depth (mapOk (fun d => .fresh (.tensor d))','andThen (appendIf o.depth (mapOk (fun d => .shared)','C103','depth buffer shared')
M('ac-pshare',F,'itemSlots','appendIf o.pose (mapOk (fun x => .fresh (.mats x))','appendIf o.pose (mapOk (fun x => .shared)','C103','pose buffer shared')
M('ac-scale',F,'tumGet','itemSlots R o n 5000','itemSlots R o n 1000','C103','other depth scale than the item model')
F='Data/AccessMem.lean'
M('ac-put',F,'putAll','| .fresh v :: l, mem => (mem.length ::','| .fresh v :: l, mem => (0 ::','C103','a new tensor lives in the cell of the intrinsics')
M('ac-put2',F,'putAll','| .shared :: l, mem => (0 ::','| .shared :: l, mem => (1 ::','C103','shared entry is another cell')
M('ac-step',F,'Store.step','w.items ++ [(putAll l w.mem).1]','[(putAll l w.mem).1]','C103','getting an item forgets the earlier ones')
M('ac-step2',F,'Store.step','⟨(putAll l w.mem).2,','⟨(putAll l [w.mem.headD (.text [])]).2,','C103','getting an item reuses the memory of earlier items')
M('ac-write',F,'Store.step','w.mem.set r v','w.mem.set (r + 1) v','C103','write hits the next tensor')
M('ac-see',F,'Store.see','| some r => w.mem[r]?','| some r => w.mem[0]?','C103','reading looks at the intrinsics')
M('ac-ask',F,'Store.ask','(putAll l w.mem).2[r]?','w.mem[r]?','C103','result read from the old memory')
F='Data/AccessIter.lean'
M('ac-loop',F,'Loop','get k = .error e → e ≠ .indexError → Loop get k [] (some e)','get k = .error e → Loop get k [] (some e)','C103','IndexError also propagates')
M('ac-loop2',F,'Loop','get k = .ok x → Loop get (k + 1) xs r','get k = .ok x → Loop get (k + 2) xs r','C103','loop skips every second item')
