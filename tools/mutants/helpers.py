F='Cfg/Model.lean'
M('hp-ty',F,'Val.ty','| .sub none _ => .dict','| .sub none _ => .node','C01','a plain dict and a CfgNode count as the same type')
M('hp-set',F,'Tree.set','if k\' = k then Tree.cons k v rest else .leaf k\' l (rest.set k v)','if k\' = k then Tree.cons k v rest else .leaf k\' l rest','C04 C86','assignment only works for the first option')
M('hp-setord',F,'Tree.set','| .nil => Tree.cons k v .nil','| .nil => .nil','C86','a new option is silently dropped')
M('hp-keys',F,'Tree.keys','| .sub k _ _ rest => k :: rest.keys','| .sub k _ _ rest => rest.keys','C04','sections are not listed among the keys')
M('hp-split',F,'splitDots','(splitChars s.toList)','(splitChars s.toList).reverse','C05','dotted names read from right to left')
M('hp-setitem',F,'setItem','| .leaf _ => .error .typeError','| .leaf l => .ok (.leaf l)','C05','setting an item on a non-container is silently ignored')
M('hp-renamed',F,'registerRenamed','if f.renamed.contains key then','if f.renamed.contains "" then','C05','renaming twice is not rejected')
F='CfgMem/Model.lean'
M('hp-setent',F,'setEnt','H.set b (.map kd (put k r es))','H ++ [.map kd (put k r es)]','C89','assignment goes to a new object')
M('hp-copyents',F,'copyEnts','some (H, m, (k, r\') :: es\')','some (H, m, (k, r) :: es\')','C89','deep copy keeps the original children')
M('hp-ofleaf',F,'ofLeaf','(H ++ [.list l.payload], .obj H.length)','(H ++ [.list l.payload], .obj 0)','C89','a list literal is bound to an old object')
M('hp-oftree',F,'ofTree','let r := H.length\n','let r := H.length - 1\n','C89','a section literal is bound to its last inner object')
F='Flt/Model.lean'
M('hp-fconf',F,'mergeConfF','F.rnd (c + scatterAl al fr rows b n)','c + scatterAl al fr rows b n','C90','confidence addition is not rounded')
M('hp-fimg',F,'mergeCloudsF','(mergeImgF F al fr rows Q fr.gn Nn)','(mergeImgF F al fr rows Q fr.gv Nn)','C90','normals averaged with vertices')
M('hp-for',F,'mergedOrF','if rows = [] then a else','if rows ≠ [] then a else','C90','the merge runs only without matches')
F='Fusion/Model.lean'
M('hp-ofin',F,'Frame.ofIn','Rgbd.vertexAt eps i, Rgbd.normalAt nrm eps i, i.rgb','Rgbd.gvertexAt eps i, Rgbd.normalAt nrm eps i, i.rgb','C85','weights computed from world coordinates')
M('hp-cell',F,'cell','.rows.getD n []','.rows.getD (n + 1) []','C34 C35 C36','row off by one')
M('hp-tov3',F,'toV3','| [x, y, z] => ⟨x, y, z⟩','| [x, y, z] => ⟨y, x, z⟩','C35','x and y swapped')
M('hp-coef',F,'coef','if c.length = 1 then c.getD 0 0 else','if c.length = 1 then c.getD k 0 else','C37','a single confidence column is not broadcast')
M('hp-setpads',F,'setPads','| (.ok (), pc) => setPads rest pc','| (.ok (), pc) => (.ok (), pc)','C37','only points are merged')
F='Geom/Model.lean'
M('hp-matmul',F,'matmulShape','.ok [n, i, j]','.ok [n, j, i]','C21 C22','shape of a product transposed')
M('hp-linspace',F,'linspace','((n : α) - 1)','(n : α)','C23','grid steps one too small')
F='Geom/ModelReal.lean'
M('hp-qnorm',F,'Quat.norm','+ q.w * q.w','','C20','scalar part left out of the norm')
M('hp-vnorm',F,'vnorm','√(w.x * w.x + w.y * w.y + w.z * w.z)','√(w.x * w.x + w.y * w.y)','C24','two-component norm')
F='Icp/Model.lean'
M('hp-tomat',F,'toMat','(t.rows.getD i []).getD j 0','(t.rows.getD j []).getD i 0','C52','matrix transposed')
M('hp-colvec',F,'colVec','(t.rows.getD i []).getD 0 0','(t.rows.getD 0 []).getD i 0','C52','first row read instead of first column')
M('hp-xiw',F,'xiW','⟨(x.rows.getD 3 []).getD 0 0, (x.rows.getD 4 []).getD 0 0, (x.rows.getD 5 []).getD 0 0⟩','⟨(x.rows.getD 2 []).getD 0 0, (x.rows.getD 3 []).getD 0 0, (x.rows.getD 4 []).getD 0 0⟩','C95','rotation read one row too early')
M('hp-dspix',F,'dsPixels','(strided H ds).flatMap fun h => (strided W ds)','(strided H ds).flatMap fun h => (List.range W)','C56','columns are not subsampled')
M('hp-gopt',F,'gatherOpt','| .ok l => .ok (some l)','| .ok _ => .ok (some l)','C56','normals and colours are not gathered')
M('hp-vecs',F,'vecs','t.rows.map Fusion.toV3','(t.rows.map Fusion.toV3).reverse','C63','points handed over in reverse order')
F='PC/Model.lean'
M('hp-shape3',F,'shape3','(p.length, ((p.head?.map T2.shape).getD (0, 0)).1','(p.length, ((p.head?.map T2.shape).getD (0, 0)).2','C25 C33','wrong padded size')
M('hp-maprows',F,'mapRows','t.rows.mapIdx fun n r => g b n r','t.rows.mapIdx fun n r => g n b r','C30','batch and point index swapped')
M('hp-okopt',F,'okOpt','| none => true','| none => false','C33','optional arguments are required')
M('hp-take',F,'T2.take','t.rows.take n','t.rows.drop n','C25','padding kept, points dropped')
M('hp-mape',F,'mapE','| .ok ys => .ok (y :: ys)','| .ok ys => .ok ys','C27','list emptied')
M('hp-maskval',F,'maskVal','then 1 else 0','then 0 else 1','C30','mask inverted')
M('hp-select',F,'select','l.getD i ⟨[], 0⟩','l.getD (i + 1) ⟨[], 0⟩','C31','index off by one')
M('hp-selattr',F,'selectAttr','if !h then (.ok none, s)','if h then (.ok none, s)','C31','attributes that are present are lost by indexing')
F='Mem/Model.lean'
M('hp-mval',F,'val','o.mask.map fun r => (m.cell r).bits','o.mask.map fun _ => (m.cell o.num).bits','C81','mask read from the wrong tensor')
M('hp-mselect',F,'select','(is.map fun i => l.getD i ⟨0, 0, 0⟩)','(is.map fun i => l.getD (i + 1) ⟨0, 0, 0⟩)','C81','index off by one')
F='RMem/Model.lean'
M('hp-step',F,'View.step','v.ops ++ [op]','op :: v.ops','C83','views composed in the wrong order')
M('hp-app',F,'Op.app','| .last => ⟨Rgbd.perm01342 c.img','| .last => ⟨Rgbd.perm01423 c.img','C83','wrong permutation')
M('hp-pclone',F,'Pass.clone','⟨fun _ _ => false, id','⟨fun _ _ => true, id','C83','clone shares memory')
M('hp-pto',F,'Pass.to','⟨fun c _ => c.dev = d, id, fun _ => d⟩','⟨fun c _ => c.dev = d, id, fun c => c.dev⟩','C84','to() copies but stays on the old device')
M('hp-pdetach',F,'Pass.detach','⟨fun _ _ => true, id','⟨fun _ _ => false, id','C83','detach copies')
M('hp-pindex',F,'Pass.index','fun v => v.step op','id','C83','indexing returns everything')
M('hp-pperm',F,'Pass.permute','fun _ v => ctg v','fun _ _ => true','C83','contiguous() never copies')
M('hp-pone',F,'Pass.one','else ⟨r, []⟩','else v','C83','the copy is not used')
M('hp-pcell',F,'Pass.cell','m.read (p.view v)','m.read v','C83','the copy holds the unpermuted tensor')
M('hp-onedev',F,'Args.oneDevice','m.dev a.depth = m.dev a.rgb && ','','C84','depth may be on another device')
M('hp-islist',F,'isList','| _ => false','| _ => true','C83','every index copies')
F='Rgbd/Model.lean'
M('hp-dims5',F,'dims5','if cf then ⟨B, L, C, H, W⟩','if cf then ⟨B, L, C, W, H⟩','C43','height and width swapped')
M('hp-mk5',F,'mk5','if cf then f b l j k i','if cf then f b l k j i','C43','rows and columns swapped in channels-first images')
M('hp-chan',F,'chan','if cf then t.at\' b l c h w','if cf then t.at\' b l h w c','C43','channels-first images read as channels-last')
M('hp-sel',F,'T5.sel','(is.getD b 0) (js.getD l 0)','(is.getD l 0) (js.getD b 0)','C46','batch and time index swapped')
M('hp-tmsel',F,'TM.sel','(is.getD b 0) (js.getD l 0)','(is.getD b 0) l','C46','poses are not selected in time')
M('hp-sel0',F,'TM.sel0','t.at\' (is.getD b 0) l','t.at\' b l','C46','intrinsics are not selected')
M('hp-bdim',F,'bdim','if a = 1 then some b else','','C91','a leading dimension of size one does not broadcast')
M('hp-tonum',F,'toNum','then 1 else 0','then 0 else 1','C43','mask inverted')
M('hp-resolve',F,'resolveInts','.ok (k :: ks)','.ok (ks ++ [k])','C46','list index reversed')
M('hp-both',F,'bothLists','| .list _, .list _ => true','| .list _, .list _ => false','C46','two lists select a grid')
F='Slam/Model.lean'
M('hp-eyes',F,'eyes','fun _ _ => M4.one','fun _ _ => ⟨.one, ⟨1, 0, 0⟩, .zero, 1⟩','C48','the first pose is not the identity')
M('hp-isgt',F,'Odom.isGt','| .prov _ => false','| .prov _ => true','C48','providers are treated as ground truth')
