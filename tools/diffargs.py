"""Compare the model of argparse (lean/Verif/Model/CommandLine.lean) with the interpreter's on random command lines.

python3 tools/diffargs.py SEED N OUT.lean writes a file; `lake env lean OUT.lean` prints the lines that differ.  The
parser below repeats the options of make_parser (gama/utilities/cli.py); no code of the repository is run.
"""
import argparse, random, sys, io, contextlib
def mk():
    p=argparse.ArgumentParser()
    p.add_argument("i",type=str)
    a=p.add_argument
    a("-sep",dest="separator",type=str,default=None)
    a("--target",dest="target",type=str,default=None)
    a("-o",dest="output_file",type=str,default="gama_model.pkl")
    a("-py",dest="export_python",type=str,default=None)
    a("--mode",dest="mode",type=str,default=None)
    a("-m",dest="metric",type=str,default=None)
    a("--long",dest="prefer_short",action="store_false")
    a("-t",dest="time_limit_m",type=int,default=60)
    a("--time_pipeline",dest="max_eval_time_m",type=int,default=5)
    a("-n",dest="n_jobs",type=int,default=1)
    a("-outdir",dest="outdir",type=str,default=None)
    a("-v",dest="verbose",action="store_true")
    a("-dry",dest="dry_run",action="store_true")
    return p
opts=["-h","--help","-sep","--target","-o","-py","--mode","-m","--long","-t","--time_pipeline","-n","-outdir","-v","-dry"]
random.seed(int(sys.argv[1])); N=int(sys.argv[2])
vals=["d.csv","5","-1","-","","--","-1.5","-.5","- x","-x","-z q","1_0","+3"," 4 ","4\n","-4\n","a b","=","-=","--=", "-5_0","_1","1__0","-outd","--t","--ti","--time","-vv","-vn","-vn3","-vn=3","-v=","-v-","-vh","-vz","-vvo=x","-ox","-o=x","--mode=a","--mo=a","--long=","--lo","-ot","-s","-sep=;","-dry=","-d","-dr","-py=x","-pyx","-target","-m=","-t5","-n-1","--xyz","---","-v=x","-vo","-voutdir","--target=","--help=","-hv"]
def show(s): return "["+",".join("Char.ofNat %d"%ord(c) for c in s)+"]"
def o(s): return "none" if s is None else "(some %s)"%show(s)
def b(x): return "true" if x else "false"
out=["import Verif.Model.CommandLine","open Gama"]
items=[]
for _ in range(N):
    L=[]
    for _ in range(random.randint(0,6)):
        r=random.random()
        if r<.45:
            L.append(random.choice(vals))
        elif r<.75:
            L+= [random.choice(opts), random.choice(["3","x","7","-2","c d"])]
        elif r<.85: L.append(random.choice(opts))
        elif r<.95: L.append("d.csv")
        else:
            q=random.choice(opts); L.append(q[:random.randint(1,len(q))]+random.choice(["","x","=3","5"]))
    if random.random()<.6 and "d.csv" not in L: L.insert(random.randint(0,len(L)),"d.csv")
    try:
        with contextlib.redirect_stdout(io.StringIO()), contextlib.redirect_stderr(io.StringIO()):
            a=mk().parse_args(list(L))
        e=".ok ⟨%s,%s,%s,%s,%s,%s,%s,%s,%d,%d,%d,%s,%s,%s⟩"%(show(a.i),o(a.separator),o(a.target),show(a.output_file),o(a.export_python),o(a.mode),o(a.metric),b(a.prefer_short),a.time_limit_m,a.max_eval_time_m,a.n_jobs,o(a.outdir),b(a.verbose),b(a.dry_run))
    except SystemExit as x:
        e=".error .help" if x.code==0 else ".error .usage"
    items.append((L,e))
import collections
sys.stderr.write(str(collections.Counter(e[:12] for _,e in items))+"\n")
for k in range(0,len(items),20):
    out.append("def cases%d : List (List Str × Except Exit CliArgs) := ["%k+",\n".join("([%s], %s)"%(",".join(show(s) for s in L),e) for L,e in items[k:k+20])+"]")
out.append('''def same (a b : Except Exit CliArgs) : Bool := match a, b with
 | .ok x, .ok y => decide (x = y) | .error x, .error y => decide (x = y) | _, _ => false''')
out.append("#eval (("+" ++ ".join("cases%d"%k for k in range(0,len(items),20))+").filter fun x => !same (parseArgs x.1) x.2).map fun x => (x.1.map String.ofList)")
open(sys.argv[3],"w").write("\n".join(out)+"\n")
