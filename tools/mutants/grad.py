G='Grad/Model.lean'; C='Grad/Code.lean'
M('gr-acc',G,'acc','| some y => X.add ex y p.2','| some _ => p.2','C106','a second gradient overwrites the first instead of being added')
M('gr-mul',G,'Op.pulls','| mul a b => [(a, X.mul ex g (e b)), (b, X.mul ex g (e a))]','| mul a b => [(a, X.mul ex g (e a)), (b, X.mul ex g (e b))]','C106','gradients of a product swapped')
M('gr-div',G,'Op.pulls','X.mul ex g.neg (X.div ex (X.div ex (e a) (e b)) (e b))','X.mul ex g (X.div ex (X.div ex (e a) (e b)) (e b))','C106','sign of the gradient of a divisor')
M('gr-sub',G,'Op.pulls','| sub a b => [(a, g), (b, g.neg)]','| sub a b => [(a, g), (b, g)]','C106','sign of the gradient of a subtrahend')
M('gr-recip',G,'Op.pulls','X.mul ex g.neg (X.mul ex r r)','X.mul ex g.neg r','C106','reciprocal not squared')
M('gr-sqrt',G,'Op.pulls','X.div ex g (X.mul ex (.fin 2) r)','X.div ex g r','C106','factor 2 of the root dropped')
M('gr-atan',G,'Op.pulls','(b, X.mul ex (X.mul ex g (e a).neg) q)','(b, X.mul ex (X.mul ex g (e a)) q)','C106','sign of the gradient of atan2')
M('gr-sel',G,'Op.pulls','(b, if c.eval e then .fin 0 else g)','(b, g)','C106','torch.where sends the gradient to both branches')
M('gr-norm',G,'Op.pulls','if X.isZero r then .fin 0 else X.mul ex (e i)','if false then .fin 0 else X.mul ex (e i)','C106','the norm backward is not masked at 0')
M('gr-clamp',G,'Op.pulls','if X.lt (e a) (.fin lo) || X.lt (.fin hi) (e a) then .fin 0 else g','g','C106','gradient passes through a clamp')
M('gr-pow',G,'Op.pulls','mapX (fun x => some (x ^ (k - 1))) (e a)','mapX (fun x => some (x ^ k)) (e a)','C106','exponent not lowered')
M('gr-exp',G,'Op.pulls','| exp a => [(a, X.mul ex g r)]','| exp a => [(a, X.mul ex g (e a))]','C106','exp backward uses the argument')
M('gr-none',G,'back','    | none => g\'\n','    | none => (o.pulls e (o.eval e) (.fin 1)).foldl acc g\'\n','C106','operations that receive no gradient are run with gradient 1')
M('gr-late',G,'back','let g\' := back (m + 1) os (Function.update e m (o.eval e)) g\n','let g\' := back (m + 1) os e g\n','C106','later operations pull back with stale values')
M('gr-uhsafe',C,'unhomogOps','[.recip 3, .scale 1 4, .const 1, .sel (.absGt 3 eps) 5 6,','[.const 1, .sel (.absGt 3 eps) 3 4, .recip 5, .scale 1 6,','C106','the mask is applied before the division (a repair): no NaN gradient')
M('gr-uhwrong',C,'unhomogOps','.mul 7 0, .mul 7 1, .mul 7 2','.mul 4 0, .mul 4 1, .mul 4 2','C106','the unmasked scale is used')
M('gr-axsqrt',C,'axisOps','.sel (.gt0 8) 16 17','.sel (.gt0 3) 16 17','C106','the guard tests qw')
M('gr-axneg',C,'axisOps','.atan2 10 11, .atan2 9 3','.atan2 9 11, .atan2 9 3','C106','sign in the branch qw < 0')
M('gr-projg',C,'projectOps','.const 1, .sel (.ne0 36) 36 37, .div 22 38','.const 1, .sel (.ne0 36) 36 37, .div 22 36','C106','u divided by the unguarded z')
M('gr-projz',C,'projectOps','.const 1, .sel (.ne0 36) 36 40, .div 29 41','.const 0, .sel (.ne0 36) 36 40, .div 29 41','C106','guard value 0')
M('gr-normg',C,'normalOps','.sel (.eq0 24) 25 24','.sel (.eq0 24) 24 25','C106','guard of the norm swapped')
M('gr-normc',C,'normalOps','.mul 11 12, .mul 9 14, .sub 18 19','.mul 9 14, .mul 11 12, .sub 18 19','C106','sign of the second component of the cross product')
M('gr-mergeg',C,'mergeOps','.sel (.eq0 4) 8 4, .recip 9','.sel (.eq0 4) 8 4, .recip 4','C106','weights not guarded')
M('gr-vert',C,'vertexOps','.scale v 11, .add 18 14','.scale v 8, .add 18 14','C106','fy replaced by fx')
M('gr-lmclamp',C,'lmOps','.clamp (-70) 70 2, .scale (-B) 3','.clamp (-7000) 7000 2, .scale (-B) 3','C106','clamp widened: gradients flow')
M('gr-lmsig',C,'lmOps','.rpow 15 (1 / nu), .recip 16','.rpow 7 (1 / nu), .recip 16','C106','the step weight uses B instead of B2')
M('gr-alpha',C,'alphaOps','.add 6 5, .neg 7,','.add 6 5, .scale 1 7,','C106','sign in the Gaussian')
M('gr-rot',C,'rotOps','.norm3 0 1 2, .sin 3, .cos 3','.norm3 0 1 1, .sin 3, .cos 3','C106','the norm misses a component')
M('gr-rotsm',C,'rotSmallOps','.neg 2, .neg 0, .neg 1, .add 3 4, .add 4 5','.neg 2, .neg 0, .neg 1, .add 3 4, .add 4 2','C106','skew matrix not antisymmetric')
S='Grad/Solve.lean'
M('gs-inv',S,'solveBack','let gN := -(Rᵀ * (gR * Rᵀ))','let gN := Rᵀ * (gR * Rᵀ)','C107','sign of the inverse backward')
M('gs-At',S,'solveBack','let gAt := gN * Aᵀ + gv * bᵀ','let gAt := gN * Aᵀ','C107','gradient through the right-hand side dropped')
M('gs-twice',S,'solveBack','let gA := Atᵀ * gN + gAtᵀ','let gA := gAtᵀ','C107','only one of the two uses of A')
M('gs-tr',S,'solveBack','let gv := Rᵀ * g','let gv := R * g','C107','transpose dropped (equivalent: the inverse is symmetric)')
M('gs-damp',S,'solveBack','gN i j * (1 : Matrix (Fin k) (Fin k) ℝ) i j','gN i j','C107','damping gradient sums all entries')
M('gs-solve',S,'solve','(Aᵀ * A + damp • (1 : Matrix (Fin k) (Fin k) ℝ))⁻¹ * (Aᵀ * b)','(Aᵀ * A - damp • (1 : Matrix (Fin k) (Fin k) ℝ))⁻¹ * (Aᵀ * b)','C107','damping subtracted')
