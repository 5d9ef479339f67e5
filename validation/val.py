import sys,os,re,subprocess,struct,difflib,glob
from decimal import Decimal
def read(path):
    tests=[];cur=None;sec=False;src=None;srcs=[]
    def fin():
        nonlocal src
        if src is not None: srcs.append(src.rstrip()); src=None
    for line in open(path,newline='').read().split('\n'):
        line=line.rstrip('\r')
        if line.startswith('# Test: '):
            fin()
            if cur is not None: tests.append((cur,srcs)); srcs=[]
            cur=line[8:]; sec=False
        elif line in('## Source','## Source (partial)'): sec=True
        elif line.startswith('## '): fin(); sec=False
        elif line=='```basic':
            if sec: src=''
        elif line=='```': fin()
        elif src is not None: src+=line+'\n'
    fin(); tests.append((cur,srcs))
    return tests
def fmt(m):
    b=int(m.group(1)); d=struct.unpack('<d',struct.pack('<Q',b))[0]
    if d!=d: return 'NaN'
    if d in(float('inf'),float('-inf')): return 'inf' if d>0 else '-inf'
    s=format(Decimal(repr(d)),'f')
    if s.endswith('.0'): s=s[:-2]
    return s
files=sys.argv[1:] or sorted(glob.glob('/repo/core/tests/test_*.md'))
bad=0;tot=0
for f in files:
    ts=read(f)
    open('/root/val/in.txt','w').write('\x02'.join('\x03'.join([n]+s) for n,s in ts))
    r=subprocess.run(['lake','env','lean','--run','/root/val/Val.lean','/root/val/in.txt'],cwd='/verif/lean',capture_output=True,text=True,timeout=600)
    out=re.sub('\x01(\\d+)\x01',fmt,r.stdout).rstrip('\n')+'\n'
    gold=open(f,newline='').read().replace('\r\n','\n')
    # cut "expected" details
    cut=lambda t:re.sub(r'^(\d+:\d+: \S+ expected ).*$',r'\1',t,flags=re.M)
    if r.returncode: print(f,'RC',r.returncode,r.stderr[:500])
    go=cut(gold); ou=cut(out)
    tot+=len(ts)
    if go!=ou:
        # per test compare
        g=go.split('# Test: '); o=ou.split('# Test: ')
        for a,b in zip(g,o):
            if a.strip()!=b.strip():
                bad+=1
                print('==',f,a.split('\n')[0])
                print('\n'.join(list(difflib.unified_diff(a.split('\n'),b.split('\n'),lineterm='',n=1))[:14]))
print('tests',tot,'bad',bad)
