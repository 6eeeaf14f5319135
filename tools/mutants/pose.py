F='Flt/Pose.lean'
M('po-swap',F,'ComposeF','MulVecF F A.R B.R.c0 C.R.c0 ∧ MulVecF F A.R B.R.c1 C.R.c1 ∧ MulVecF F A.R B.R.c2 C.R.c2 ∧ WorldF F A B.t C.t','MulVecF F B.R A.R.c0 C.R.c0 ∧ MulVecF F B.R A.R.c1 C.R.c1 ∧ MulVecF F B.R A.R.c2 C.R.c2 ∧ WorldF F B A.t C.t','C100','composition in the other order')
M('po-col',F,'ComposeF','MulVecF F A.R B.R.c1 C.R.c1','MulVecF F A.R B.R.c0 C.R.c1','C100','a column is repeated')
M('po-t',F,'ComposeF','WorldF F A B.t C.t','MulVecF F A.R B.t C.t','C100','translation not added')
M('po-trow',F,'ComposeF','WorldF F A B.t C.t','WorldF F B A.t C.t','C100','translations swapped')
M('po-bottom',F,'ComposeF',"C.b = V3.zero ∧ C.s = 1","C.b = V3.zero",'C100','homogeneous entry left unset')
M('po-chain',F,'Chain','ComposeF F (T k) (P k) (P (k + 1))','ComposeF F (T k) (P 0) (P (k + 1))','C100','composed with the first pose instead of the previous one')
M('po-off',F,'Chain','ComposeF F (T k) (P k) (P (k + 1))','ComposeF F (T (k + 1)) (P k) (P (k + 1))','C100','transform of the next frame')
F='Flt/PoseDrift.lean'
M('po-defect',F,'defect','(1 + ρ₀) * (1 + (3 * ρ + 11 * u)) ^ k - 1','(1 + ρ₀) * (1 + (3 * ρ + 11 * u)) - 1','C100','bound that does not grow with the sequence')
