#!/usr/bin/env python3
"""Write /verif/seeded/LOG.jsonl from the raw results of the mutation runs in /tmp/mut.
One line per seeded bug: the definition edited, the edit, the claim the edit breaks, the theorems that failed when the
edited model was rebuilt, and the theorems that were added or tightened because the edit had survived before."""
import json,os,re
D='/tmp/mut/'
ids={}
for x in open('/verif/properties.jsonl'):
    r=json.loads(x); ids[r['id']]=r['title']
CL={'Amm':{'Pool.new':'C10 C77','Pool.isEmpty':'C07 C10','quote':'C07 C79','sortAssets':'C12','idealAmounts':'C79','feeOn':'C80','amountOut':'C01 C03 C04','amountIn':'C05','amountsIn':'C05 C14','updateOracle':'C77','firstLiquidity':'C10','shareLiquidity':'C07','liquidityFor':'C07 C10','doAdd':'C02 C07 C79','reservesToRemove':'C08','doRemove':'C02 C08','protocolFees':'C11 C80','mintProtocolFee':'C11 C80','doSwap':'C01 C02 C03','addLiquidity':'C07 C79','removeLiquidity':'C08','createPool':'C10 C78','updateFee':'C80','updateFeeTo':'C80','amountsOut':'C03 C13','swap':'C01 C03'},
'Router':{'hasDup':'C82','routeChecks':'C82','swapExactIn':'C13 C82','swapExactOut':'C14 C82','adj':'C15','search':'C15','routeQuote':'C16','allRoutes':'C15','bestRoute':'C16'},
'Stable':{'fit':'C59 C84','hdiv':'C59 C84','dStep':'C84 C59','close':'C84','dLoop':'C84','computeD':'C84','yStep':'C84 C18','yLoop':'C84','computeBase':'C18 C84','sortAssets':'C12 C83','feeSum':'C84','amountOut':'C18 C84','amountIn':'C84','idealAmounts':'C85','amountsIn':'C84','feeOn':'C85','updateOracle':'C83','firstLiquidity':'C85','shareLiquidity':'C85 C17','liquidityFor':'C85','d0Of':'C85','d1Of':'C85','boostedLiquidity':'C85 C17','doAdd':'C58 C60 C85','reservesToRemove':'C85','doRemove':'C58 C85','feeReciprocal':'C85','protocolFees':'C85','mintProtocolFee':'C85','doSwap':'C18 C58','addLiquidity':'C60 C85','removeLiquidity':'C85','createPool':'C83 C85'},
'Streaming':{'Stream.finished':'C24','Stream.deltaOf':'C21','Stream.claimed':'C20','Stream.vestedRest':'C21','Stream.balanceOf':'C20 C21','sortDesc':'C87','pushId':'C87','pushLib':'C87','popFinished':'C24 C87','doCreate':'C19 C86','create':'C86','traitCreate':'C86','cancel':'C20 C22 C23','payout':'C20 C86','Stream.deduct':'C20','withdraw':'C20 C21 C23','setMin':'C86'},
'Farming':{'Pos.default':'C25','Pool.lastBlock':'C29 C89','Pool.rewardPerShare':'C29 C89','Pool.update':'C27 C89','Pool.settle':'C29 C27','updateNone':'C88','create':'C88','setStatus':'C88','setCool':'C88','resetUnlock':'C88 C28','deposit':'C25 C26','release':'C28 C26','withdraw':'C25 C28','matured':'C28','sumMatured':'C28 C26','payIf':'C26','redeem':'C28 C26','payReward':'C27','claim':'C27','newRate':'C27 C89','dispatch':'C27 C89'},
'Bridge':{'Token.default':'C108','State.assetId':'C50','Proposal.tryComplete':'C32 C53','inReg':'C30','hasBridged':'C30 C31','sortReg':'C30','mergeGo':'C30','touch':'C30','addNonce':'C30','updateRegistry':'C30 C31','registerChain':'C108','unregisterChain':'C108','registerToken':'C50 C108','unregisterToken':'C50 C108','mutateToken':'C108','setFee':'C108','setStatus':'C108','setCap':'C108','cleanCap':'C108','underCap':'C33','updateCap':'C33','takeIn':'C34','teleport':'C34 C106','materializeAllowed':'C107','grantBonus':'C109','payOut':'C52','execute':'C52 C31','cancelMat':'C31 C35','setProp':'C32 C110','resolve':'C53 C107','relayMember':'C32','openProp':'C110 C107','castVote':'C32 C110','materialize':'C32 C107','newBlock':'C110','validThreshold':'C51','changeThreshold':'C51','changeMembers':'C51'},
'Loans':{},'Prices':{},'Crowdloans':{},'Staking':{},'StakingTypes':{}}
CL['Loans']={'Book.zero':'C36 C57','State.dep':'C36','isActive':'C41','cash':'C55','getPrice':'C41','calcRate':'C37 C54','utilization':'C39 C46','incrementIndex':'C39','advance':'C39 C40','marketStatus':'C39 C55','setBook':'C39','accrue':'C39 C40','debt':'C40 C47','sumGo':'C41','collAmount':'C41 C42','threshValue':'C43','debtValue':'C41 C43','totalBorrowed':'C41','totalColl':'C41','totalThresh':'C43','lfBase':'C41','lfThresh':'C43','liquidity':'C41 C42','threshLiquidity':'C43','ensureLiquidity':'C41 C42','ensureCash':'C38 C41','ensureSupplyCap':'C45','ensureBorrowCap':'C45','deltaIndex':'C48','updSupply':'C48','updBorrow':'C48','distSupply':'C48','distBorrow':'C48','payReward':'C48','claimReward':'C48','mint':'C36 C37','redeem':'C38 C42','redeemAll':'C38','borrow':'C40 C41','repay':'C47','repayAll':'C47','collateral':'C41 C42','liquidate':'C43 C44','liquidated':'C44','seize':'C44','addMarket':'C49 C57','activate':'C49','updateModel':'C57','forceUpdate':'C49','updateMarket':'C57','addReward':'C48','updateSpeed':'C48','addReserves':'C55','reduceReserves':'C55','transferPtokens':'C36 C48','transfer':'C36 C48','redeemInternal':'C38','doBorrow':'C40','doRepay':'C47'}
CL['Prices']={'isVault':'C91','isLfLp':'C91','isAux':'C91','mantissa':'C91','emergencyPrice':'C90','vaultPrice':'C91','lpPoolOf':'C91','lpValue':'C91','lpPrice':'C91','special':'C91','setPrice':'C90','resetPrice':'C90','setForeign':'C92'}
CL['Crowdloans']={'getEntry':'C93','putEntry':'C93','killEntry':'C93 C103','Vault.set':'C93','bump':'C93 C94','updateContribution':'C94','migrateContribution':'C103','sendXcm':'C102','doContribute':'C94','State.currentKey':'C101','Vault.total':'C95','State.putVault':'C101','prevFinished':'C101','createVault':'C101'}
DEF={'Amm':'C02','Router':'C82','Stable':'C58','Streaming':'C19','Farming':'C26','Bridge':'C34','Loans':'C55','Prices':'C91','Crowdloans':'C93 C96','Staking':'C62 C63 C68','StakingTypes':'C68'}
DEF.update({'RuntimeFee':'C220','RuntimeGenesis':'C221','Currency':'C166 C168 C169','Registry':'C141 C143','XcmTrader':'C145 C146','XcmAdapter':'C148 C150','Runtime':'C152 C155','Helper':'C161 C162','EvmCodec':'C121 C122','EvmXcm':'C123 C124','EvmErc20':'C125 C127','EvmBalances':'C125 C126','EvmAssets':'C132 C134','Migrations':'C171 C172','XcmEntry':'C184 C186 C188','EvmDeployed':'C191','EvmKeccak':'C191','Oracle':'C205 C206','PricesLp':'C203','SystemFeed':'C207','LoansRate':'C46','RuntimeAccounts':'C197','SystemDeployed':'C198','SystemOrigin':'C196','SystemModel':'C189 C190','EvmGas':'C213 C214'})
FILES={'RuntimeFee':'Runtime/Fee.lean','RuntimeGenesis':'Runtime/Genesis.lean','LoansRate':'Loans/Rate.lean','RuntimeAccounts':'Runtime/Accounts.lean','SystemDeployed':'System/Deployed.lean','SystemOrigin':'System/Origin.lean','SystemModel':'System/Model.lean','EvmGas':'Evm/Gas.lean','EvmDeployed':'Evm/Deployed.lean','EvmKeccak':'Evm/Keccak.lean','SystemFeed':'System/Feed.lean','XcmEntry':'Xcm/Entry.lean','StakingTypes':'Staking/Types.lean','XcmTrader':'Xcm/Trader.lean','XcmAdapter':'Xcm/Adapter.lean','EvmCodec':'Evm/Codec.lean','EvmXcm':'Evm/Xcm.lean','EvmErc20':'Evm/Erc20.lean','EvmBalances':'Evm/BalancesErc20.lean','EvmAssets':'Evm/AssetsErc20.lean'}
# edits that change no behaviour a user can see (checked by hand): no theorem can fail
EQ={('Amm','amountsIn'):'the default of headD on a list that is never empty',('Amm','updateFee'):'the parameter type (Permill) already enforces the bound',
('Router','swapExactIn'):'default of getLastD on a non-empty list',('Router','swapExactOut'):'default of headD on a non-empty list',
('Stable','amountsIn'):'the default of headD on a list that is never empty',('Stable','dLoop'):'only the error code of an unreachable exhaustion changes',
('Streaming','sortDesc'):'ids in a list are distinct, so strict and weak order agree',('Streaming','Stream.deltaOf'):'at the boundary both branches give the same number',
('Bridge','Token.default'):'the default is only read for unregistered tokens, which are rejected before',('Bridge','State.assetId'):'the default is only read for unregistered tokens',
('Bridge','hasBridged'):'unregistered chains are rejected before',('Farming','Pool.lastBlock'):'at the boundary both branches give the same block',('Farming','payIf'):'paying 0 changes nothing',
('Stable','mintProtocolFee'):'at the boundary the fee is 0',('Stable','close'):'both comparisons accept a difference of 1',('Stable','d0Of'):'with an empty pool both branches give 0',
('Router','routeQuote'):'default on a list that is never empty',('Amm','idealAmounts'):'at the boundary both branches give the same amounts',('Amm','protocolFees'):'at the boundary the fee is 0',
('Farming','newRate'):'at the boundary both branches give the same rate',('Loans','isActive'):'a market that does not exist has no other effect',
('Loans','addMarket'):'implied by the check of the liquidation threshold',('Loans','updateMarket'):'implied by the check of the liquidation threshold',
('Loans','ensureLiquidity'):'the sum was checked just before',('Loans','threshValue'):'both are zero together',('Loans','Book.zero'):'the fields are set when the market is added',
('Loans','redeemVoucher'):'the result of the subtraction is not used'}
EQ2=[('Staking','newRate','≤','at the boundary both branches give the same rate'),
('Staking','claimLoans','','accruing interest does not change the collateral factor'),
('Staking','eraOffset','≤','at the boundary both branches give the same offset'),
('StakingTypes','split','','at the boundary both branches give the same amounts'),
('Registry','search','','one more round of a loop that has already ended'),
('Loans','updEarned','<','with equal rates both branches give the same value'),
('Loans','reducibleAsset','<','at the boundary all vouchers may be redeemed on both branches'),
('Crowdloans','normalizedAmount','≤','at the boundary both branches give the same amount'),
('XcmAdapter','withdraw','.other','only an error code changes'),('XcmAdapter','transferAsset','.other','only an error code changes'),
('XcmAdapter','pow10','<','the largest u128 is not a power of ten'),
('Runtime','bypass','.other','only an error code changes'),
('Currency','natBurn','total','implied by the check of the reducible balance'),
('EvmErc20','saturate','<','at the boundary both branches give the same value'),
('Bridge','resolve','','checked again when the proposal is executed'),
('EvmCodec','expectArguments','True','reading the arguments fails anyway'),
('EvmCodec','sliceFrom','<','at the boundary both branches give the empty slice'),
('EvmCodec','expectArguments','-','reading the arguments fails anyway'),
('EvmXcm','NetworkId.Fits','','the field is a Rust array or u64, already bounded by its type'),
('EvmKeccak','lane','1','the default of an index that is always in range'),
('EvmKeccak','rhoPi','1','the default of an index that is always in range'),
('EvmGas','logCosts','','a bound on a part of a sum that is itself bounded'),
('XcmEntry','process','','with no error handler both branches run the appendix'),
]
def claim(P,d,failed=()):
    named=sorted({m for t in failed for m in re.findall(r'C\d{2,3}(?=_)',t) if m in ids},key=lambda k:int(k[1:]))[:4]
    c=CL.get(P,{}).get(d) or ' '.join(named) or DEF[P]
    return '; '.join(f'{k} ({ids[k]})' for k in c.split())
def key(r): return (r['line'],r['new'])
out=[]
rows=[json.loads(x) for x in open(D+'results.jsonl')]
EQ3={('swapExactInE','traded who amtIn route'):'the first of the quoted amounts is the amount given',('execE','[.fee s.fee]'):'the state in scope is the one after the update, with the same fee',('idealAmounts','<'):'at the boundary both branches give the same amounts',('protocolFees','<'):'at the boundary the fee is 0',('updateFee','True'):'the parameter type (Permill) already enforces the bound'}
def id3(r): return (r['file'],r['def'],r['new'])
for i,r in enumerate(rows):
    earlier=[q for q in rows[:i] if id3(q)==id3(r)]
    if any(q['rc'] for q in earlier): continue
    if not r['rc'] and any(id3(q)==id3(r) for q in rows[i+1:]): continue   # run again later: one line per edit
    e=dict(definition='Verif/'+r['file']+' '+r['def'],edit=f"{r['old'].strip()}  =>  {r['new'].strip()}",claim_broken=r['breaks'],theorems_failed=r['failed'],theorems_tightened=[],outcome='killed' if r['rc'] else 'survived')
    if r['rc'] and earlier: e.update(theorems_tightened=r['failed'],outcome='survived at first, killed after tightening')
    if not r['rc']:
        for (a,b),t in EQ3.items():
            if a==r['def'] and b in r['new']: e.update(outcome='survived: equivalent program',claim_broken='none: '+t)
    out.append(e)
for P in ['Amm','Router','Stable','Streaming','Farming','Bridge','Loans','Prices','Crowdloans','Staking','StakingTypes','Currency','Registry','XcmTrader','XcmAdapter','Runtime','Helper','EvmCodec','EvmXcm','EvmErc20','EvmBalances','EvmAssets','Migrations','XcmEntry','EvmDeployed','EvmKeccak','Oracle','SystemFeed','LoansRate','RuntimeAccounts','SystemDeployed','SystemOrigin','SystemModel','EvmGas','RuntimeFee','RuntimeGenesis']:
    f=D+f'auto_{P}.jsonl'
    if not os.path.exists(f): continue
    file=FILES.get(P,f'{P}/Model.lean')
    re_={}
    for suffix in ('re_','re2_','re3_','re4_','re9_'):
        g=D+f'{suffix}{P}.jsonl'
        if suffix=='re2_' and P=='Loans': g=D+'re_Loans2.jsonl'
        if os.path.exists(g):
            for x in open(g):
                r=json.loads(x)
                if key(r) not in re_ or r['rc']: re_[key(r)]=r
    for x in open(f):
        r=json.loads(x)
        if (r.get('stillborn') and P not in ('RuntimeFee','RuntimeGenesis')) or r['definition'].endswith('_statement') or re.match(r'ex[A-Z0-9]',r['definition']): continue
        if r['rc'] and not r['failed']: continue   # killed by memory or time, says nothing
        e=dict(definition=f"Verif/{file} {r['definition']}",edit=f"{r['op']}: {r['old'].strip()}  =>  {r['new'].strip()}",claim_broken=claim(P,r['definition'],r['failed']),theorems_failed=r['failed'],theorems_tightened=[],outcome='killed' if r['rc'] else 'survived')
        if r['rc']==0 and key(r) in re_:
            q=re_[key(r)]
            if q['rc'] and q['failed']:
                e.update(theorems_failed=q['failed'],theorems_tightened=q['failed'],outcome='survived at first, killed after tightening')
        if e['outcome']=='survived':
            n=EQ.get((P,r['definition']))
            for a,b,c,t in EQ2:
                if (a,b)==(P,r['definition']) and c in r['new']: n=t
            if n: e['outcome']='survived: equivalent program'; e['claim_broken']='none: '+n
        out.append(e)
os.makedirs('/verif/seeded',exist_ok=True)
with open('/verif/seeded/LOG.jsonl','w') as f:
    for e in out: f.write(json.dumps(e,ensure_ascii=False)+'\n')
import collections
print(len(out),collections.Counter(e['outcome'] for e in out))
if os.environ.get('SHOW'):
    for e in out:
        if e['outcome']=='survived': print(e['definition'],'|',e['edit'][:200])
